import Verif.Conn.Socket
/-
Which network namespaces are dumped, on which thread, and what becomes of their handles.
metadata/conntracker/internal/consumer.go:220-317, 340-345, utils.go:25-141.
-/
namespace Kindling.Conn.Dump

open Kindling.Conn.Consumer Kindling

/-- What the calls of the system answer.  A namespace is a number (its inode); `nsOf` is the namespace that `<pid>/ns/net` names, if
it can be opened; `canSet` says whether `setns` works; `sock` whether a socket can be opened and the request sent there;
`peer` is the answer of `isPeerNS`; `table` the reads of the dump there. -/
structure Env where
  entries : Option (List (Bytes × Bool))
  nsOf : Int → Option Nat
  dial : Bool
  peer : Nat → Bool
  canGet : Bool
  canSet : Nat → Bool
  sock : Nat → Bool
  table : Nat → List (List Msg)

/-- The state outside: the namespace of the thread, and how many handles of namespaces are open. -/
structure World where
  cur : Nat
  fds : Nat
deriving DecidableEq

/-- `WithAllProcs` (utils.go:66-90): the numbers of the directories that have a number for a name. -/
def pids (entries : List (Bytes × Bool)) : List Int := entries.filterMap (fun e =>
  if e.2 = false then none else if (Dec.parseInt 64 e.1).2 then some (Dec.parseInt 64 e.1).1 else none)

/-- `GetNetNamespaces` (utils.go:25-61) on the pids: the first handle of each namespace is kept, the others are closed. -/
def collect (nsOf : Int → Option Nat) : List Nat → List Int → List Nat
  | _, [] => []
  | seen, p :: ps => match nsOf p with
    | none => collect nsOf seen ps
    | some n => if n ∈ seen then collect nsOf seen ps else n :: collect nsOf (n :: seen) ps

/-- How a dump in one namespace ends: it cannot be made, it is read to its end, or its end never comes. -/
inductive Dumped
  | failed
  | ended (evs : List (List Msg))
  | hangs (evs : List (List Msg))
deriving DecidableEq

/-- The function run by `dumpTable` (consumer.go:285-316). -/
def dumpFn (e : Env) (ns : Nat) : Dumped :=
  if e.sock ns = false then .failed
  else let r := receive false (e.table ns); if r.2 then .ended r.1 else .hangs r.1

/-- `WithNS` (utils.go:105-127) around it.  `netns.Get` opens a handle; nothing closes it. -/
def dumpTable (e : Env) (w : World) (ns : Nat) : World × Dumped :=
  if e.canGet = false then (w, .failed)
  else if ns = w.cur then ({ w with fds := w.fds + 1 }, dumpFn e ns)
  else if e.canSet ns = false then ({ w with fds := w.fds + 1 }, .failed)
  else match dumpFn e ns with
    | .hangs evs => (⟨ns, w.fds + 1⟩, .hangs evs)
    | r => (⟨if e.canSet w.cur then w.cur else ns, w.fds + 1⟩, r)

/-- The loop of the goroutine (consumer.go:259-276) over the namespaces to dump: what is sent, per namespace, and whether the
channel is closed at the end. -/
def dumps (e : Env) : World → List Nat → World × List (Nat × List (List Msg)) × Bool
  | w, [] => (w, [], true)
  | w, n :: ns => match dumpTable e w n with
    | (w', .failed) => dumps e w' ns
    | (w', .hangs evs) => (w', [(n, evs)], false)
    | (w', .ended evs) => let r := dumps e w' ns; (r.1, (n, evs) :: r.2.1, r.2.2)

/-- `DumpTable` (consumer.go:223-280).  `none` for the output is an error.  The handles of the list and of the root namespace are
closed by the goroutine when it ends; on the errors for the root namespace those of the list are not. -/
def dumpAll (e : Env) (all : Bool) (w : World) : World × Option (List (Nat × List (List Msg)) × Bool) :=
  let nss : Option (List Nat) := if all then e.entries.map (fun es => collect e.nsOf [] (pids es)) else some []
  match nss with
  | none => (w, none)
  | some nss => match e.nsOf 1 with
    | none => ({ w with fds := w.fds + nss.length }, none)
    | some root =>
      if e.dial = false then ({ w with fds := w.fds + nss.length }, none)
      else
        let r := dumps e { w with fds := w.fds + nss.length + 1 } (root :: nss.filter (fun n => decide (n ≠ root) && e.peer n))
        (if r.2.2 then { r.1 with fds := r.1.fds - nss.length - 1 } else r.1, some r.2)

/-! ### What is dumped -/

theorem mem_collect (nsOf : Int → Option Nat) (seen : List Nat) (ps : List Int) (n : Nat) :
    n ∈ collect nsOf seen ps ↔ n ∉ seen ∧ ∃ p ∈ ps, nsOf p = some n := by
  induction ps generalizing seen with
  | nil => simp [collect]
  | cons p ps ih =>
    rw [collect]
    split
    · rename_i h
      rw [ih]
      simp only [List.mem_cons, exists_eq_or_imp, h]
      simp
    · rename_i m h
      split
      · rename_i hm
        rw [ih]
        simp only [List.mem_cons, exists_eq_or_imp, h, Option.some.injEq]
        constructor
        · exact fun ⟨h1, h2⟩ => ⟨h1, Or.inr h2⟩
        · rintro ⟨h1, rfl | h2⟩
          · exact absurd hm h1
          · exact ⟨h1, h2⟩
      · rename_i hm
        rw [List.mem_cons, ih]
        simp only [List.mem_cons, exists_eq_or_imp, h, Option.some.injEq, not_or]
        constructor
        · rintro (rfl | ⟨⟨h1, h2⟩, h3⟩)
          · exact ⟨hm, Or.inl rfl⟩
          · exact ⟨h2, Or.inr h3⟩
        · rintro ⟨h1, rfl | h2⟩
          · exact Or.inl rfl
          · by_cases hn : n = m
            · exact Or.inl hn
            · exact Or.inr ⟨⟨hn, h1⟩, h2⟩

theorem nodup_collect (nsOf : Int → Option Nat) (seen : List Nat) (ps : List Int) : (collect nsOf seen ps).Nodup := by
  induction ps generalizing seen with
  | nil => exact List.nodup_nil
  | cons p ps ih =>
    rw [collect]
    split
    · exact ih _
    · split
      · exact ih _
      · refine List.nodup_cons.2 ⟨?_, ih _⟩
        rw [mem_collect]
        simp

/-- Spec: a process of the proc file system with this namespace. -/
def Lives (e : Env) (n : Nat) : Prop := ∃ es name, e.entries = some es ∧ (name, true) ∈ es ∧
  ∃ pid, Dec.parseInt 64 name = (pid, true) ∧ e.nsOf pid = some n

/-- Spec: the dump of this namespace can be made, and comes to its end with these events. -/
def Yields (e : Env) (n : Nat) (evs : List (List Msg)) : Prop :=
  e.canSet n = true ∧ e.sock n = true ∧ receive false (e.table n) = (evs, true)

theorem mem_pids (es : List (Bytes × Bool)) (p : Int) : p ∈ pids es ↔ ∃ name, (name, true) ∈ es ∧ Dec.parseInt 64 name = (p, true) := by
  unfold pids
  rw [List.mem_filterMap]
  constructor
  · rintro ⟨⟨name, d⟩, h1, h2⟩
    cases d with
    | false => simp at h2
    | true =>
      simp only [Bool.true_eq_false, if_false] at h2
      split at h2
      · rename_i h3
        cases h2
        exact ⟨name, h1, Prod.ext rfl h3⟩
      · cases h2
  · rintro ⟨name, h1, h2⟩
    exact ⟨(name, true), h1, by simp [h2]⟩

theorem dumps_out (e : Env) (hget : e.canGet = true) (hend : ∀ n, (receive false (e.table n)).2 = true) (ns : List Nat) (w : World)
    (hcur : e.canSet w.cur = true) :
    (dumps e w ns).2 = ((ns.filter (fun n => e.canSet n && e.sock n)).map (fun n => (n, (receive false (e.table n)).1)), true) ∧
    (dumps e w ns).1 = ⟨w.cur, w.fds + ns.length⟩ := by
  have hone : ∀ (w : World) (n : Nat), e.canSet w.cur = true → dumpTable e w n = (⟨w.cur, w.fds + 1⟩,
      if e.canSet n && e.sock n then .ended (receive false (e.table n)).1 else .failed) := by
    intro w n hc
    have hf : dumpFn e n = if e.sock n then .ended (receive false (e.table n)).1 else .failed := by
      unfold dumpFn
      cases e.sock n <;> simp [hend]
    unfold dumpTable
    rw [if_neg (by rw [hget]; simp), hf]
    by_cases hn : n = w.cur
    · rw [if_pos hn, hn, hc]
      simp
    · rw [if_neg hn]
      cases hs : e.canSet n
      · simp
      · cases e.sock n <;> simp [hc]
  induction ns generalizing w with
  | nil => exact ⟨rfl, rfl⟩
  | cons n ns ih =>
    have hih := ih ⟨w.cur, w.fds + 1⟩ hcur
    have hl : w.fds + 1 + ns.length = w.fds + (ns.length + 1) := by omega
    rw [dumps, hone w n hcur]
    cases hb : e.canSet n && e.sock n with
    | false =>
      simp only [Bool.false_eq_true, if_false, List.filter_cons, hb]
      refine ⟨hih.1, ?_⟩
      rw [hih.2, List.length_cons, hl]
    | true =>
      simp only [if_true, List.filter_cons, hb, List.map_cons]
      refine ⟨?_, ?_⟩
      · rw [hih.1]
      · rw [hih.2, List.length_cons, hl]

/-- A dump of all namespaces: every namespace that a process lives in, that is a peer and that can be dumped, and the root namespace, is
dumped exactly once, with all the events of its table, the root namespace first; the channel is closed; and the thread is back
in its namespace.  Namespaces that cannot be dumped do not keep others from it. -/
theorem dumped_exactly_partial (e : Env) (w : World) (root : Nat) (hroot : e.nsOf 1 = some root) (hent : e.entries ≠ none) (hdial : e.dial = true)
    (hget : e.canGet = true) (hcur : e.canSet w.cur = true) (hend : ∀ n, (receive false (e.table n)).2 = true) :
    ∃ out w', dumpAll e true w = (w', some (out, true)) ∧ w'.cur = w.cur ∧ (out.map (·.1)).Nodup ∧
      (∀ n evs, (n, evs) ∈ out ↔ Yields e n evs ∧ (n = root ∨ (e.peer n = true ∧ Lives e n))) ∧
      (e.canSet root = true → e.sock root = true → ∃ evs r, out = (root, evs) :: r) := by
  obtain ⟨es, hes⟩ := Option.ne_none_iff_exists'.1 hent
  have hd := dumps_out e hget hend (root :: (collect e.nsOf [] (pids es)).filter (fun n => decide (n ≠ root) && e.peer n))
    { w with fds := w.fds + (collect e.nsOf [] (pids es)).length + 1 } hcur
  have hall : ∃ w', w'.cur = w.cur ∧ dumpAll e true w = (w', some (dumps e { w with fds := w.fds + (collect e.nsOf [] (pids es)).length + 1 }
      (root :: (collect e.nsOf [] (pids es)).filter (fun n => decide (n ≠ root) && e.peer n))).2) := by
    unfold dumpAll
    simp only [if_true, hes, Option.map_some, hroot, hdial, Bool.true_eq_false, if_false]
    refine ⟨_, ?_, rfl⟩
    simp only [hd.1, hd.2, if_true]
  obtain ⟨w', hw, hall⟩ := hall
  rw [hd.1] at hall
  refine ⟨_, w', hall, hw, ?_, ?_, ?_⟩
  · rw [List.map_map, List.map_congr_left (g := id) (by simp), List.map_id]
    refine List.Pairwise.filter _ (List.nodup_cons.2 ⟨by simp, ?_⟩)
    exact List.Pairwise.filter _ (nodup_collect _ _ _)
  · intro n evs
    rw [List.mem_map]
    simp only [List.mem_filter, List.mem_cons, Bool.and_eq_true, decide_eq_true_eq, mem_collect, List.not_mem_nil, not_false_eq_true, true_and]
    have hlives : (∃ p ∈ pids es, e.nsOf p = some n) ↔ Lives e n := by
      unfold Lives
      constructor
      · rintro ⟨p, hp, hn⟩
        obtain ⟨name, h1, h2⟩ := (mem_pids es p).1 hp
        exact ⟨es, name, hes, h1, p, h2, hn⟩
      · rintro ⟨es', name, h1, h2, p, h3, h4⟩
        rw [hes] at h1
        cases h1
        exact ⟨p, (mem_pids _ _).2 ⟨name, h2, h3⟩, h4⟩
    constructor
    · rintro ⟨m, ⟨h1, h2, h3⟩, h4⟩
      cases h4
      refine ⟨⟨h2, h3, Prod.ext rfl (hend _)⟩, ?_⟩
      rcases h1 with h1 | ⟨h1, h5, h6⟩
      · exact Or.inl h1
      · exact Or.inr ⟨h6, hlives.1 h1⟩
    · rintro ⟨⟨h1, h2, h3⟩, h4⟩
      refine ⟨n, ⟨?_, h1, h2⟩, by rw [h3]⟩
      by_cases hr : n = root
      · exact Or.inl hr
      · rcases h4 with h4 | ⟨h4, h5⟩
        · exact absurd h4 hr
        · exact Or.inr ⟨hlives.2 h5, hr, h4⟩
  · intro h1 h2
    simp only [List.filter_cons, h1, h2, Bool.and_self, if_true, List.map_cons]
    exact ⟨_, _, rfl⟩

/-- Without the option, only the root namespace is dumped. -/
theorem root_only (e : Env) (w : World) (root : Nat) (evs : List (List Msg)) (hroot : e.nsOf 1 = some root) (hdial : e.dial = true)
    (hget : e.canGet = true) (hcur : e.canSet w.cur = true) (hy : Yields e root evs) :
    ∃ w', dumpAll e false w = (w', some ([(root, evs)], true)) ∧ w'.cur = w.cur := by
  obtain ⟨h1, h2, h3⟩ := hy
  have hf : dumpFn e root = .ended evs := by unfold dumpFn; simp [h2, h3]
  have hdt : dumpTable e { w with fds := w.fds + 0 + 1 } root = (⟨w.cur, w.fds + 0 + 1 + 1⟩, .ended evs) := by
    unfold dumpTable
    rw [if_neg (by rw [hget]; simp), hf]
    by_cases hn : root = w.cur
    · rw [if_pos hn]
    · rw [if_neg hn, if_neg (by rw [h1]; simp)]
      simp only [hcur, if_true]
  refine ⟨⟨w.cur, w.fds + 1⟩, ?_, rfl⟩
  unfold dumpAll
  simp only [Bool.false_eq_true, if_false, hroot, hdial, Bool.true_eq_false, List.filter_nil, List.length_nil, dumps, hdt]
  rfl

/-- Finding: `netns.Get` opens a handle that `WithNS` never closes, so each dump leaves as many handles open as it has visited
namespaces, whether they could be dumped or not. -/
theorem handles_leak (e : Env) (w : World) (root : Nat) (hroot : e.nsOf 1 = some root) (es : List (Bytes × Bool)) (hent : e.entries = some es)
    (hdial : e.dial = true) (hget : e.canGet = true) (hcur : e.canSet w.cur = true) (hend : ∀ n, (receive false (e.table n)).2 = true) :
    (dumpAll e true w).1.fds = w.fds + 1 + ((collect e.nsOf [] (pids es)).filter (fun n => decide (n ≠ root) && e.peer n)).length := by
  have hd := dumps_out e hget hend (root :: (collect e.nsOf [] (pids es)).filter (fun n => decide (n ≠ root) && e.peer n))
    { w with fds := w.fds + (collect e.nsOf [] (pids es)).length + 1 } hcur
  unfold dumpAll
  simp only [if_true, hent, Option.map_some, hroot, hdial, Bool.true_eq_false, if_false]
  rw [hd.1, hd.2]
  simp only [if_true, List.length_cons]
  omega

/-- Finding: an unreadable root namespace leaves all handles of the list open. -/
theorem list_leaks (e : Env) (w : World) (es : List (Bytes × Bool)) (hent : e.entries = some es) (hbad : e.nsOf 1 = none ∨ e.dial = false) :
    dumpAll e true w = (⟨w.cur, w.fds + (collect e.nsOf [] (pids es)).length⟩, none) := by
  unfold dumpAll
  simp only [if_true, hent, Option.map_some]
  split
  · rfl
  · rename_i h
    rcases hbad with hb | hb
    · rw [hb] at h; cases h
    · rw [if_pos hb]

/-- Finding: a thread that may not go back stays in the namespace it has dumped, and is given back to the scheduler there. -/
theorem thread_stranded (e : Env) (w : World) (n : Nat) (evs : List (List Msg)) (hget : e.canGet = true) (hn : n ≠ w.cur) (hback : e.canSet w.cur = false)
    (hy : Yields e n evs) : dumpTable e w n = (⟨n, w.fds + 1⟩, .ended evs) := by
  obtain ⟨h1, h2, h3⟩ := hy
  have hf : dumpFn e n = .ended evs := by unfold dumpFn; simp [h2, h3]
  unfold dumpTable
  rw [if_neg (by rw [hget]; simp), if_neg hn, if_neg (by rw [h1]; simp), hf]
  simp [hback]

/-- Finding: a namespace whose dump has no end keeps all later ones from being dumped, and the channel open. -/
theorem endless_dump_blocks (e : Env) (w : World) (n : Nat) (ns : List Nat) (hget : e.canGet = true) (hset : e.canSet n = true)
    (hsock : e.sock n = true) (hend : (receive false (e.table n)).2 = false) :
    (dumps e w (n :: ns)).2 = ([(n, (receive false (e.table n)).1)], false) := by
  have hf : dumpFn e n = .hangs (receive false (e.table n)).1 := by unfold dumpFn; simp [hsock, hend]
  rw [dumps]
  have : (dumpTable e w n).2 = .hangs (receive false (e.table n)).1 := by
    unfold dumpTable
    rw [if_neg (by rw [hget]; simp), hf]
    by_cases hn : n = w.cur
    · rw [if_pos hn]
    · rw [if_neg hn, if_neg (by rw [hset]; simp)]
  split
  · rename_i h; rw [h] at this; cases this
  · rename_i h; rw [h] at this; cases this; rfl
  · rename_i h; rw [h] at this; cases this

/-! ### Opening the socket of the stream again -/

/-- `initNetlinkSocket` up to the socket (consumer.go:340-349, `WithRootNS`, utils.go:132-139): the handle of the root namespace and
that of the namespace before stay open.  The `Bool` says whether the function was run. -/
def initSocket (e : Env) (w : World) : World × Bool := match e.nsOf 1 with
  | none => (w, false)
  | some root =>
    if e.canGet = false then ({ w with fds := w.fds + 1 }, false)
    else if root = w.cur then ({ w with fds := w.fds + 2 }, true)
    else if e.canSet root = false then ({ w with fds := w.fds + 2 }, false)
    else (⟨if e.canSet w.cur then w.cur else root, w.fds + 2⟩, true)

/-- The sockets of a stream: one at the start and one per trip of the breaker (consumer.go:136, 485). -/
def sockets (e : Env) : Nat → World → World
  | 0, w => (initSocket e w).1
  | n + 1, w => sockets e n (initSocket e w).1

/-- Finding: each time the stream is throttled two handles are lost, for as long as the process lives: with the limit `limit`
and a load just above it, any number of them. -/
theorem throttling_leaks (e : Env) (w : World) (root : Nat) (hroot : e.nsOf 1 = some root) (hget : e.canGet = true) (limit n : Nat) :
    (sockets e (Stream.run limit (Stream.init 0) (List.replicate n [StreamOp.read (limit + 1) 0, .update 1000000000, .read 0 0]).flatten).trips w).fds
      = w.fds + 2 * (n + 1) := by
  have hone : ∀ w : World, (initSocket e w).1.fds = w.fds + 2 := by
    intro w
    unfold initSocket
    simp only [hroot, hget, Bool.true_eq_false, if_false]
    split
    · rfl
    · split <;> rfl
  have : ∀ n w, (sockets e n w).fds = w.fds + 2 * (n + 1) := by
    intro n
    induction n with
    | zero => intro w; rw [sockets, hone]
    | succ n ih => intro w; rw [sockets, ih, hone]; omega
  rw [trips_happen limit n (Stream.init 0) rfl, this]
  show w.fds + 2 * (0 + n + 1) = _
  omega

/-! ### Examples -/

/-- Three processes, two namespaces, and a file. -/
def exEnv : Env where
  entries := some [(bs "1", true), (bs "17", true), (bs "18", true), (bs "self", true), (bs "99", false)]
  nsOf := fun p => if p = 1 then some 5 else if p = 17 ∨ p = 18 then some 6 else if p = 99 then some 7 else none
  dial := true
  peer := fun _ => true
  canGet := true
  canSet := fun _ => true
  sock := fun _ => true
  table := fun n => [[.data [UInt8.ofNat n]], [.done []]]

example : dumpAll exEnv true ⟨6, 0⟩ = (⟨6, 2⟩, some ([(5, [[.data [5]], []]), (6, [[.data [6]], []])], true)) := by rfl
example : (∀ n, (receive false (exEnv.table n)).2 = true) ∧ exEnv.nsOf 1 = some 5 ∧ exEnv.canSet 6 = true := by
  refine ⟨fun n => ?_, rfl, rfl⟩
  simp [exEnv, receive, batch, bad]
example : Lives exEnv 6 := ⟨_, bs "17", rfl, by simp, 17, by decide +kernel, rfl⟩
example : ¬ Lives exEnv 7 := by
  rintro ⟨es, name, h1, h2, pid, h3, h4⟩
  cases h1
  simp only [List.mem_cons, Prod.mk.injEq, Bool.true_eq_false, and_false, List.not_mem_nil, or_false, and_true] at h2
  have hp : pid = 99 := by
    simp only [exEnv] at h4
    split at h4
    · cases h4
    · split at h4
      · cases h4
      · split at h4
        · assumption
        · cases h4
  subst hp
  rcases h2 with rfl | rfl | rfl | rfl <;> exact absurd h3 (by decide +kernel)

/-- However the dump of a namespace goes, one more handle stays open once the current namespace could be had; the thread is in
the dumped namespace exactly if it got there and the dump never ends or the way back is barred. -/
theorem one_handle_each (e : Env) (w : World) (n : Nat) (hget : e.canGet = true) :
    (dumpTable e w n).1.fds = w.fds + 1 ∧
    ((dumpTable e w n).1.cur ≠ w.cur ↔ n ≠ w.cur ∧ e.canSet n = true ∧ ((∃ evs, dumpFn e n = .hangs evs) ∨ e.canSet w.cur = false)) ∧
    ((dumpTable e w n).1.cur ≠ w.cur → (dumpTable e w n).1.cur = n) := by
  unfold dumpTable
  rw [if_neg (by rw [hget]; simp)]
  by_cases hn : n = w.cur
  · simp [hn]
  · cases hs : e.canSet n with
    | false => simp [hn]
    | true =>
      cases hf : dumpFn e n with
      | hangs evs => simp [hn]
      | failed => cases hb : e.canSet w.cur <;> simp [hn]
      | ended evs => cases hb : e.canSet w.cur <;> simp [hn]

/-- The socket is opened exactly if the root namespace can be had and the thread is in it or can get there; the thread stays
where it was unless the way back is barred. -/
theorem socket_opened (e : Env) (w : World) :
    ((initSocket e w).2 = true ↔ ∃ root, e.nsOf 1 = some root ∧ e.canGet = true ∧ (root = w.cur ∨ e.canSet root = true)) ∧
    ((initSocket e w).1.cur ≠ w.cur ↔ ∃ root, e.nsOf 1 = some root ∧ e.canGet = true ∧ root ≠ w.cur ∧ e.canSet root = true ∧ e.canSet w.cur = false) := by
  unfold initSocket
  cases hn : e.nsOf 1 with
  | none => simp
  | some root =>
    cases hg : e.canGet with
    | false => simp
    | true =>
      by_cases hr : root = w.cur
      · simp [hr]
      · cases hs : e.canSet root with
        | false => simp [hr, hs]
        | true => cases hb : e.canSet w.cur <;> simp [hr, hs]

end Kindling.Conn.Dump
