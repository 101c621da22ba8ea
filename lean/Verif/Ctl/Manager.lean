import Verif.Dec
/-
Which analyzers get an event (component/analyzer/manager.go) and which events are requests
(model/kindling_event_helper.go).

Simplified: analyzers are elements of an arbitrary type with a list of event names (`ConsumableEvents`).  The slices
of the map are values: `append(value, a)` in lines 46-48 may write into the same array several times, but the written
element is always the last one of the slice stored afterwards.
-/
namespace Kindling.Ctl.Manager

/-- `ConsumeAllEvents` (manager.go:10). -/
def allEvents : Bytes := bs "consumeAllEvents"

variable {α : Type}

/-- State of the first loop (manager.go:25-26). -/
structure Acc (α : Type) where
  map : AMap Bytes (List α)
  all : List α

/-- Body of the inner loop (manager.go:29-39). -/
def addEvent (a : α) (s : Acc α) (e : Bytes) : Acc α :=
  if e = allEvents then { s with all := s.all ++ [a] }
  else { s with map := s.map.set e (((s.map.get e).getD []) ++ [a]) }

/-- Body of the outer loop (manager.go:27-41). -/
def addAnalyzer (events : α → List Bytes) (s : Acc α) (a : α) : Acc α := (events a).foldl (addEvent a) s

/-- Lines 44-48: for every key, `analyzerMap[key] = append(value, analyzer)` for each analyzer, always from `value`. -/
def joinAll (all : List α) (value : List α) : List α := all.foldl (fun _ a => value ++ [a]) value

structure Manager (α : Type) where
  map : AMap Bytes (List α)
  all : List α

/-- `NewManager` (manager.go:21-55); `none` is the error. -/
def newManager (events : α → List Bytes) (l : List α) : Option (Manager α) :=
  if l = [] then none
  else
    let s := l.foldl (addAnalyzer events) ⟨[], []⟩
    some ⟨s.map.map (fun kv => (kv.1, joinAll s.all kv.2)), s.all⟩

/-- `GetConsumableAnalyzers` (manager.go:82-92). -/
def Manager.analyzersOf (m : Manager α) (e : Bytes) : List α := (m.map.get e).getD m.all

/-! ### Spec -/

/-- The analyzers that list `e`, once per mention, in order. -/
def subscribers (events : α → List Bytes) (l : List α) (e : Bytes) : List α :=
  l.flatMap (fun a => List.replicate ((events a).count e) a)

theorem mem_subscribers (events : α → List Bytes) (l : List α) (e : Bytes) (a : α) :
    a ∈ subscribers events l e ↔ a ∈ l ∧ e ∈ events a := by
  unfold subscribers
  simp only [List.mem_flatMap, List.mem_replicate, ne_eq]
  constructor
  · rintro ⟨b, hb, hc, rfl⟩
    exact ⟨hb, by
      apply Decidable.by_contra
      intro h
      exact hc (List.count_eq_zero_of_not_mem h)⟩
  · rintro ⟨h1, h2⟩
    exact ⟨a, h1, fun h => (List.count_eq_zero.1 h) h2, rfl⟩

/-! ### The first loop -/

theorem get_getD_set (m : AMap Bytes (List α)) (e e' : Bytes) (v : List α) :
    (m.set e v).get e' = if e = e' then some v else m.get e' := by
  by_cases h : e = e'
  · subst h; simp
  · rw [AMap.get_set_ne _ _ h, if_neg h]

theorem foldEvents (a : α) (es : List Bytes) (s : Acc α) :
    (es.foldl (addEvent a) s).all = s.all ++ List.replicate (es.count allEvents) a ∧
    ∀ e, e ≠ allEvents →
      ((es.foldl (addEvent a) s).map.get e).getD [] = (s.map.get e).getD [] ++ List.replicate (es.count e) a ∧
      (((es.foldl (addEvent a) s).map.get e).isSome ↔ (s.map.get e).isSome ∨ e ∈ es) := by
  induction es generalizing s with
  | nil => simp
  | cons x r ih =>
    obtain ⟨h1, h2⟩ := ih (addEvent a s x)
    rw [List.foldl_cons]
    by_cases hx : x = allEvents
    · have hs : addEvent a s x = { s with all := s.all ++ [a] } := by unfold addEvent; rw [if_pos hx]
      rw [hs] at h1 h2 ⊢
      constructor
      · rw [h1, List.append_assoc, hx, List.count_cons_self, List.replicate_succ]; rfl
      · intro e he
        obtain ⟨g1, g2⟩ := h2 e he
        have hne : x ≠ e := fun h => he (h ▸ hx)
        refine ⟨?_, ?_⟩
        · rw [g1, List.count_cons_of_ne hne]
        · rw [g2]; simp [hne.symm]
    · have hs : addEvent a s x = { s with map := s.map.set x (((s.map.get x).getD []) ++ [a]) } := by
        unfold addEvent; rw [if_neg hx]
      rw [hs] at h1 h2 ⊢
      constructor
      · rw [h1, List.count_cons_of_ne hx]
      · intro e he
        obtain ⟨g1, g2⟩ := h2 e he
        simp only [get_getD_set] at g1 g2
        by_cases hxe : x = e
        · subst hxe
          rw [if_pos rfl] at g1 g2
          refine ⟨?_, by rw [g2]; simp⟩
          rw [g1, List.count_cons_self, List.replicate_succ]
          simp
        · rw [if_neg hxe] at g1 g2
          refine ⟨by rw [g1, List.count_cons_of_ne hxe], by rw [g2]; simp [Ne.symm hxe]⟩

theorem foldAnalyzers (events : α → List Bytes) (l : List α) (s : Acc α) :
    (l.foldl (addAnalyzer events) s).all = s.all ++ subscribers events l allEvents ∧
    ∀ e, e ≠ allEvents →
      ((l.foldl (addAnalyzer events) s).map.get e).getD [] = (s.map.get e).getD [] ++ subscribers events l e ∧
      (((l.foldl (addAnalyzer events) s).map.get e).isSome ↔ (s.map.get e).isSome ∨ ∃ a ∈ l, e ∈ events a) := by
  induction l generalizing s with
  | nil => simp [subscribers]
  | cons a r ih =>
    obtain ⟨h1, h2⟩ := ih (addAnalyzer events s a)
    obtain ⟨f1, f2⟩ := foldEvents a (events a) s
    rw [List.foldl_cons]
    constructor
    · rw [h1]; unfold addAnalyzer; rw [f1]; simp [subscribers]
    · intro e he
      obtain ⟨g1, g2⟩ := h2 e he
      obtain ⟨k1, k2⟩ := f2 e he
      refine ⟨?_, ?_⟩
      · rw [g1]; unfold addAnalyzer; rw [k1]; simp [subscribers]
      · rw [g2]; unfold addAnalyzer; rw [k2]; simp [or_assoc]

theorem get_map_val {β : Type} (m : AMap Bytes α) (f : α → β) (e : Bytes) :
    AMap.get (m.map (fun kv => (kv.1, f kv.2)) : AMap Bytes β) e = (AMap.get m e).map f := by
  induction m with
  | nil => rfl
  | cons x r ih =>
    obtain ⟨k, v⟩ := x
    simp only [List.map_cons, AMap.get]
    split
    · rfl
    · exact ih

theorem joinAll_eq (all value : List α) : joinAll all value = value ++ all.getLast?.toList := by
  unfold joinAll
  have h : ∀ (x : List α), all.foldl (fun _ a => value ++ [a]) x = match all.getLast? with
      | none => x
      | some a => value ++ [a] := by
    induction all with
    | nil => intro x; rfl
    | cons a r ih =>
      intro x
      rw [List.foldl_cons, ih]
      cases r with
      | nil => rfl
      | cons b r => simp [List.getLast?_cons_cons]; cases h : (b :: r).getLast? <;> simp_all
  rw [h]
  cases all.getLast? <;> simp

theorem no_key_all (events : α → List Bytes) (l : List α) (s : Acc α) (h : s.map.get allEvents = none) :
    (l.foldl (addAnalyzer events) s).map.get allEvents = none := by
  induction l generalizing s with
  | nil => exact h
  | cons a r ih =>
    rw [List.foldl_cons]
    apply ih
    unfold addAnalyzer
    generalize events a = es
    induction es generalizing s with
    | nil => exact h
    | cons e r ih2 =>
      rw [List.foldl_cons]
      apply ih2
      unfold addEvent
      split
      · exact h
      · rename_i hne
        simp only
        rw [AMap.get_set_ne _ _ hne]
        exact h

/-- A manager is refused only when there is no analyzer at all. -/
theorem refused_iff (events : α → List Bytes) (l : List α) : newManager events l = none ↔ l = [] := by
  unfold newManager
  by_cases h : l = [] <;> simp [h]

/-- C48, what the code does.  An event somebody lists by name goes to these analyzers and to the last of those that
take all events; any other event goes to all of those that take all events. -/
theorem analyzers_of_event (events : α → List Bytes) (l : List α) (m : Manager α) (hm : newManager events l = some m)
    (e : Bytes) :
    ((∃ a ∈ l, e ∈ events a) → e ≠ (bs "consumeAllEvents") →
      m.analyzersOf e = subscribers events l e ++ (subscribers events l (bs "consumeAllEvents")).getLast?.toList) ∧
    ((¬ ∃ a ∈ l, e ∈ events a) ∨ e = bs "consumeAllEvents" → m.analyzersOf e = subscribers events l (bs "consumeAllEvents")) := by
  rw [show bs "consumeAllEvents" = allEvents from rfl] at *
  unfold newManager at hm
  split at hm
  · cases hm
  · simp only [Option.some.injEq] at hm
    obtain ⟨h1, h2⟩ := foldAnalyzers events l ⟨[], []⟩
    simp only [List.nil_append] at h1
    constructor
    · intro hex he
      obtain ⟨g1, g2⟩ := h2 e he
      have := g2.2 (Or.inr hex)
      rw [← hm]
      unfold Manager.analyzersOf
      simp only
      rw [get_map_val]
      obtain ⟨v, hv⟩ := Option.isSome_iff_exists.1 this
      rw [hv] at g1 ⊢
      simp only [Option.getD_some, AMap.get_nil, Option.getD_none, List.nil_append] at g1
      rw [g1, h1]
      simp [joinAll_eq]
    · intro h
      have hn : (l.foldl (addAnalyzer events) ⟨[], []⟩).map.get e = none := by
        by_cases he : e = allEvents
        · rw [he]; exact no_key_all events l _ rfl
        · obtain ⟨g1, g2⟩ := h2 e he
          cases hg : (l.foldl (addAnalyzer events) ⟨[], []⟩).map.get e with
          | none => rfl
          | some v =>
            rcases g2.1 (by simp [hg]) with h3 | h3
            · simp at h3
            · rcases h with h | h
              · exact absurd h3 h
              · exact absurd h he
      rw [← hm]
      unfold Manager.analyzersOf
      simp only
      rw [get_map_val, hn, h1]
      rfl

/-- C48 when at most one analyzer takes all events: an event is given to exactly the analyzers that list it or take
all events, once if they list it once. -/
theorem event_reaches_subscribers_partial [DecidableEq α] (events : α → List Bytes) (l : List α) (m : Manager α)
    (hm : newManager events l = some m) (h1 : (subscribers events l (bs "consumeAllEvents")).length ≤ 1) (e : Bytes) :
    (∀ a, a ∈ m.analyzersOf e ↔ a ∈ l ∧ (e ∈ events a ∨ (bs "consumeAllEvents") ∈ events a)) ∧
    (∀ a ∈ l, l.Nodup → (events a).count e + (events a).count (bs "consumeAllEvents") = 1 → (m.analyzersOf e).count a = 1) := by
  rw [show bs "consumeAllEvents" = allEvents from rfl] at *
  have hcount : ∀ (x : Bytes) (a : α), a ∈ l → l.Nodup → (subscribers events l x).count a = (events a).count x := by
    intro x a ha hn
    unfold subscribers
    clear hm h1
    induction l with
    | nil => cases ha
    | cons b r ih =>
      rw [List.nodup_cons] at hn
      simp only [List.flatMap_cons, List.count_append]
      by_cases hb : b = a
      · subst hb
        have : (r.flatMap (fun a => List.replicate ((events a).count x) a)).count b = 0 := by
          rw [List.count_eq_zero]
          intro hmem
          exact hn.1 ((mem_subscribers events r x b).1 hmem).1
        rw [this]; simp
      · rw [ih (by simpa [Ne.symm hb] using ha) hn.2]
        rw [List.count_replicate]
        simp [hb]
  have hlast : (subscribers events l allEvents).getLast?.toList = subscribers events l allEvents := by
    cases hs : subscribers events l allEvents with
    | nil => rfl
    | cons x r =>
      rw [hs] at h1
      cases r with
      | nil => rfl
      | cons y r => simp at h1
  obtain ⟨g1, g2⟩ := analyzers_of_event events l m hm e
  rw [show bs "consumeAllEvents" = allEvents from rfl] at g1 g2
  rw [hlast] at g1
  by_cases hex : (∃ a ∈ l, e ∈ events a) ∧ e ≠ allEvents
  · rw [g1 hex.1 hex.2]
    constructor
    · intro a
      rw [List.mem_append, mem_subscribers, mem_subscribers]
      constructor
      · rintro (h | h)
        · exact ⟨h.1, Or.inl h.2⟩
        · exact ⟨h.1, Or.inr h.2⟩
      · rintro ⟨h, h' | h'⟩
        · exact Or.inl ⟨h, h'⟩
        · exact Or.inr ⟨h, h'⟩
    · intro a ha hn hc
      rw [List.count_append, hcount _ _ ha hn, hcount _ _ ha hn, hc]
  · have hor : (¬ ∃ a ∈ l, e ∈ events a) ∨ e = allEvents := by
      by_cases h : ∃ a ∈ l, e ∈ events a
      · right
        apply Decidable.by_contra
        intro he
        exact hex ⟨h, he⟩
      · exact Or.inl h
    rw [g2 hor]
    constructor
    · intro a
      rw [mem_subscribers]
      constructor
      · rintro ⟨h, h'⟩; exact ⟨h, Or.inr h'⟩
      · rintro ⟨h, h' | h'⟩
        · rcases hor with ho | ho
          · exact absurd ⟨a, h, h'⟩ ho
          · exact ⟨h, ho ▸ h'⟩
        · exact ⟨h, h'⟩
    · intro a ha hn hc
      rw [hcount _ _ ha hn]
      rcases hor with ho | ho
      · have : (events a).count e = 0 := List.count_eq_zero.2 (fun h => ho ⟨a, ha, h⟩)
        omega
      · subst ho; omega

/-- Finding (C48 fails with two analyzers that take all events): as soon as anybody lists an event by name, only the
last of them gets it. -/
theorem consume_all_analyzer_skipped (events : α → List Bytes) (l : List α) (m : Manager α)
    (hm : newManager events l = some m) (e : Bytes) (he : e ≠ (bs "consumeAllEvents")) (hex : ∃ b ∈ l, e ∈ events b) (a : α)
    (ha : a ∈ l) (hall : (bs "consumeAllEvents") ∈ events a) (hne : e ∉ events a)
    (hl : (subscribers events l (bs "consumeAllEvents")).getLast? ≠ some a) :
    (a ∈ l ∧ (bs "consumeAllEvents") ∈ events a) ∧ a ∉ m.analyzersOf e := by
  rw [show bs "consumeAllEvents" = allEvents from rfl] at *
  refine ⟨⟨ha, hall⟩, ?_⟩
  rw [(analyzers_of_event events l m hm e).1 hex he, List.mem_append, mem_subscribers]
  rintro (h | h)
  · exact hne h.2
  · rw [Option.mem_toList] at h
    exact hl h

/-- Two analyzers that take everything and one for `connect`: the first gets `read` but not `connect`. -/
def ev3 : Nat → List Bytes
  | 0 => [allEvents]
  | 1 => [bs "connect"]
  | _ => [allEvents]

example : ((newManager ev3 [0, 1, 2]).map (fun m => (m.analyzersOf (bs "connect"), m.analyzersOf (bs "read")))) =
    some ([1, 2], [0, 2]) := by decide
example : ((newManager ev3 [1, 2]).map (fun m => (m.analyzersOf (bs "connect"), m.analyzersOf (bs "read")))) =
    some ([1, 2], [2]) := by decide

/-! ### Requests and responses -/

/-- The parts of an event `IsRequest` reads: `net` is `Category == CAT_NET`, `role` is the socket's role if the event
has a context with a socket. -/
structure Evt where
  name : Bytes
  net : Bool
  role : Option Bool

/-- `isRequest` (kindling_event_helper.go:300-310); `none` is the error. -/
def isRequest' (e : Evt) (inp : Bool) : Option Bool :=
  match e.role with
  | none => none
  | some r => some (r == inp)

/-- `IsRequest` (kindling_event_helper.go:282-298). -/
def isRequest (e : Evt) : Option Bool :=
  if e.net then
    if e.name = bs "read" ∨ e.name = bs "recvfrom" ∨ e.name = bs "recvmsg" ∨ e.name = bs "readv" ∨
        e.name = bs "pread" ∨ e.name = bs "preadv" then isRequest' e true
    else if e.name = bs "write" ∨ e.name = bs "sendto" ∨ e.name = bs "sendmsg" ∨ e.name = bs "writev" ∨
        e.name = bs "sendmmsg" ∨ e.name = bs "pwrite" ∨ e.name = bs "pwritev" then isRequest' e false
    else none
  else none

/-- Spec: the calls that take bytes from a socket, and those that give bytes to it. -/
def readCalls : List Bytes := [bs "read", bs "readv", bs "pread", bs "preadv", bs "recvfrom", bs "recvmsg"]
def writeCalls : List Bytes := [bs "write", bs "writev", bs "pwrite", bs "pwritev", bs "sendto", bs "sendmsg", bs "sendmmsg"]

/-- C60.  Requests are what a server (role true) reads and a client writes; responses are what a server writes and a
client reads; nothing else is accepted. -/
theorem request_direction (e : Evt) :
    (isRequest e = some true ↔ e.net = true ∧
      ((e.name ∈ readCalls ∧ e.role = some true) ∨ (e.name ∈ writeCalls ∧ e.role = some false))) ∧
    (isRequest e = some false ↔ e.net = true ∧
      ((e.name ∈ writeCalls ∧ e.role = some true) ∨ (e.name ∈ readCalls ∧ e.role = some false))) := by
  have hdis : ∀ n ∈ readCalls, n ∉ writeCalls := by decide
  have e1 : (e.name = bs "read" ∨ e.name = bs "recvfrom" ∨ e.name = bs "recvmsg" ∨ e.name = bs "readv" ∨
        e.name = bs "pread" ∨ e.name = bs "preadv") ↔ e.name ∈ readCalls := by
    simp only [readCalls, List.mem_cons, List.not_mem_nil, or_false]
    constructor
    · rintro (h | h | h | h | h | h) <;> simp [h]
    · rintro (h | h | h | h | h | h) <;> simp [h]
  have e2 : (e.name = bs "write" ∨ e.name = bs "sendto" ∨ e.name = bs "sendmsg" ∨ e.name = bs "writev" ∨
        e.name = bs "sendmmsg" ∨ e.name = bs "pwrite" ∨ e.name = bs "pwritev") ↔ e.name ∈ writeCalls := by
    simp only [writeCalls, List.mem_cons, List.not_mem_nil, or_false]
    constructor
    · rintro (h | h | h | h | h | h | h) <;> simp [h]
    · rintro (h | h | h | h | h | h | h) <;> simp [h]
  unfold isRequest
  simp only [e1, e2]
  have hd := hdis e.name
  cases hnet : e.net <;> simp only [Bool.false_eq_true, if_false, if_true, false_and, iff_false, true_and]
  · simp
  · by_cases h1 : e.name ∈ readCalls
    · have h2 := hd h1
      unfold isRequest'
      cases e.role with
      | none => simp [h1]
      | some r => cases r <;> simp [h1, h2]
    · by_cases h2 : e.name ∈ writeCalls
      · unfold isRequest'
        cases e.role with
        | none => simp [h1, h2]
        | some r => cases r <;> simp [h1, h2]
      · simp [h1, h2]

example : isRequest ⟨bs "sendmmsg", true, some false⟩ = some true ∧ isRequest ⟨bs "connect", true, some false⟩ = none := by decide

end Kindling.Ctl.Manager
