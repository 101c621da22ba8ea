import Verif.Dec
/-
The stream between the metadata provider and its clients.  metadata/metaprovider/service/service.go and handler.go,
client/client.go and unwrapper_handler.go, ioutil/writeflusher.go.
-/
namespace Kindling.K8s.Stream

/-! ### Messages -/

/-- The four kinds of objects. -/
inductive Kind where
  | pod | service | rs | node
deriving DecidableEq, Repr

/-- Names of the kinds (service.go:94-121, client.go:83-90). -/
def Kind.name : Kind → Bytes
  | .pod => bs "pod" | .service => bs "service" | .rs => bs "rs" | .node => bs "node"

/-- One call of `AddPod`, `UpdatePod`, `DeletePod` or its counterparts for the other kinds. -/
inductive Call (O : Type) where
  | add (o : O)
  | update (old new : O)
  | delete (o : O)
deriving DecidableEq, Repr

/-- A field of type `json.RawMessage` that is present: `null`, an object that unmarshals into the type of the kind, or
something that does not. -/
inductive Raw (O : Type) where
  | null
  | obj (o : O)
  | bad
deriving DecidableEq, Repr

/-- `MetaDataVO` (api.go:38-43); `none` is a field that is not in the JSON text. -/
structure Msg (O : Type) where
  type : Bytes
  op : Bytes
  new : Option (Raw O)
  old : Option (Raw O)
deriving DecidableEq, Repr

variable {O : Type}

/-- The unwrappers (unwrapper_handler.go:30-72): `json.Unmarshal` of `null` leaves the zero object and is no error. -/
def unwrap (zero : O) : Raw O → Option O
  | .null => some zero
  | .obj o => some o
  | .bad => none

/-- `UnwrapperHandler.Apply` (unwrapper_handler.go:84-131): the call made, or an error. -/
def unwrapCall (zero : O) (m : Msg O) : Option (Call O) :=
  if m.op = bs "add" then
    match m.new with
    | none => none
    | some r => (unwrap zero r).map .add
  else if m.op = bs "update" then
    match m.new, m.old with
    | some n, some o =>
      match unwrap zero o with
      | none => none
      | some o' => (unwrap zero n).map (.update o')
    | _, _ => none
  else if m.op = bs "delete" then
    match m.old with
    | none => none
    | some r => (unwrap zero r).map .delete
  else none

/-- `Client.apply` (client.go:80-99): a type that is not known is ignored, an error ends the process (`log.Panicf`). -/
def clientApply (zero : O) (m : Msg O) : Res (Option (Kind × Call O)) :=
  let go (k : Kind) : Res (Option (Kind × Call O)) :=
    match unwrapCall zero m with
    | none => .panic
    | some c => .ok (some (k, c))
  if m.type = bs "pod" then go .pod
  else if m.type = bs "service" then go .service
  else if m.type = bs "rs" then go .rs
  else if m.type = bs "node" then go .node
  else .ok none

/-- The message of a call as it arrives: `MetaDataRsyncResponse` has all four fields and no `omitempty`, so that an object that is
not there is `null` (api.go:31-36, handler.go:23-49). -/
def message (k : Kind) : Call O → Msg O
  | .add o => ⟨k.name, bs "add", some (.obj o), some .null⟩
  | .update old new => ⟨k.name, bs "update", some (.obj new), some (.obj old)⟩
  | .delete o => ⟨k.name, bs "delete", some .null, some (.obj o)⟩

/-- `NewHandler` (handler.go:69-93): the call the provider makes on its own cache for a notification of the informer.
`shrink` is `decreasePodInfo` (handler.go:95-113).  The embedded `AddObj` and `UpdateObj` are registered, not the methods `AddPod`
and `UpdatePod` of the pod handler; its `DeleteObj` is.  Tombstones: Provider.lean. -/
def served (shrink : O → O) (k : Kind) : Call O → Call O
  | .delete o => if k = .pod then .delete (shrink o) else .delete o
  | c => c

/-- Every notification leads to the same call with the same objects in the same order at the provider and at the client. -/
theorem call_forwarded (zero : O) (shrink : O → O) (k : Kind) (c : Call O) :
    clientApply zero (message k (served shrink k c)) = .ok (some (k, served shrink k c)) := by
  have hu : ∀ c : Call O, unwrapCall zero (message k c) = some c := by
    intro c
    cases c with
    | add o => rfl
    | update old new =>
      unfold unwrapCall
      simp only [message]
      rw [if_neg (show bs "update" ≠ bs "add" by decide)]
      rfl
    | delete o =>
      unfold unwrapCall
      simp only [message]
      rw [if_neg (show bs "delete" ≠ bs "add" by decide), if_neg (show bs "delete" ≠ bs "update" by decide)]
      rfl
  have ht : ∀ c : Call O, (message k c).type = k.name := by intro c; cases c <;> rfl
  unfold clientApply
  simp only [hu, ht]
  cases k with
  | pod => exact if_pos rfl
  | service => rw [if_neg (by decide)]; exact if_pos rfl
  | rs => rw [if_neg (by decide), if_neg (by decide)]; exact if_pos rfl
  | node => rw [if_neg (by decide), if_neg (by decide), if_neg (by decide)]; exact if_pos rfl

/-- What a client does with any message whatsoever. -/
theorem client_apply_spec (zero : O) (m : Msg O) :
    (clientApply zero m = .ok none ↔ ∀ k : Kind, m.type ≠ k.name) ∧
    (∀ k c, clientApply zero m = .ok (some (k, c)) ↔ m.type = k.name ∧
      ((m.op = bs "add" ∧ ∃ r o, m.new = some r ∧ unwrap zero r = some o ∧ c = .add o) ∨
       (m.op = bs "update" ∧ ∃ rn ro n o, m.new = some rn ∧ m.old = some ro ∧ unwrap zero rn = some n ∧ unwrap zero ro = some o ∧ c = .update o n) ∨
       (m.op = bs "delete" ∧ ∃ r o, m.old = some r ∧ unwrap zero r = some o ∧ c = .delete o))) := by
  have hu : ∀ c, unwrapCall zero m = some c ↔
      ((m.op = bs "add" ∧ ∃ r o, m.new = some r ∧ unwrap zero r = some o ∧ c = .add o) ∨
       (m.op = bs "update" ∧ ∃ rn ro n o, m.new = some rn ∧ m.old = some ro ∧ unwrap zero rn = some n ∧ unwrap zero ro = some o ∧ c = .update o n) ∨
       (m.op = bs "delete" ∧ ∃ r o, m.old = some r ∧ unwrap zero r = some o ∧ c = .delete o)) := by
    intro c
    have hau : (bs "add" = bs "update") = False := eq_false (by decide)
    have hua : (bs "update" = bs "add") = False := eq_false (by decide)
    have had : (bs "add" = bs "delete") = False := eq_false (by decide)
    have hud : (bs "update" = bs "delete") = False := eq_false (by decide)
    unfold unwrapCall
    by_cases ha : m.op = bs "add"
    · rw [if_pos ha]
      simp only [ha, true_and, hau, had, false_and, or_false]
      cases m.new with
      | none => simp
      | some r =>
        simp only [Option.some.injEq]
        constructor
        · intro h
          obtain ⟨o, h1, h2⟩ := Option.map_eq_some_iff.1 h
          exact ⟨r, o, rfl, h1, h2.symm⟩
        · rintro ⟨_, o, rfl, h1, rfl⟩
          rw [h1]; rfl
    · rw [if_neg ha]
      by_cases hb : m.op = bs "update"
      · rw [if_pos hb]
        simp only [hb, true_and, hud, false_and, or_false, hua, false_or]
        cases hn : m.new with
        | none => simp
        | some rn =>
          cases ho : m.old with
          | none => simp
          | some ro =>
            simp only
            cases h1 : unwrap zero ro with
            | none =>
              constructor
              · intro h; cases h
              · rintro ⟨_, _, _, _, _, ⟨⟩, _, h2, _⟩
                rw [h1] at h2; cases h2
            | some o =>
              constructor
              · intro h
                obtain ⟨n, h2, h3⟩ := Option.map_eq_some_iff.1 h
                exact ⟨rn, ro, n, o, rfl, rfl, h2, h1, h3.symm⟩
              · rintro ⟨_, _, n, o', ⟨⟩, ⟨⟩, h2, h3, rfl⟩
                rw [h1] at h3; cases h3
                simp only [h2, Option.map_some]
      · rw [if_neg hb]
        simp only [ha, hb, false_and, false_or]
        by_cases hc : m.op = bs "delete"
        · rw [if_pos hc]
          simp only [hc, true_and]
          cases m.old with
          | none => simp
          | some r =>
            simp only [Option.some.injEq]
            constructor
            · intro h
              obtain ⟨o, h1, h2⟩ := Option.map_eq_some_iff.1 h
              exact ⟨r, o, rfl, h1, h2.symm⟩
            · rintro ⟨_, o, rfl, h1, rfl⟩
              rw [h1]; rfl
        · rw [if_neg hc]
          simp [hc]
  have hgo : ∀ k : Kind, ((match unwrapCall zero m with
      | none => .panic
      | some c => .ok (some (k, c)) : Res (Option (Kind × Call O))) = .ok none ↔ False) ∧
      ∀ k' c, ((match unwrapCall zero m with
      | none => .panic
      | some c => .ok (some (k, c)) : Res (Option (Kind × Call O))) = .ok (some (k', c)) ↔ k = k' ∧ unwrapCall zero m = some c) := by
    intro k
    cases unwrapCall zero m with
    | none => simp
    | some c => simp
  have hinj : ∀ k k' : Kind, k.name = k'.name → k = k' := by
    intro k k' h
    cases k <;> cases k' <;> first | rfl | exact absurd h (by decide)
  have hk : ∀ k : Kind, m.type = k.name → clientApply zero m = (match unwrapCall zero m with
      | none => .panic
      | some c => .ok (some (k, c))) := by
    intro k h
    unfold clientApply
    simp only [h]
    cases k with
    | pod => exact if_pos rfl
    | service => rw [if_neg (by decide)]; exact if_pos rfl
    | rs => rw [if_neg (by decide), if_neg (by decide)]; exact if_pos rfl
    | node => rw [if_neg (by decide), if_neg (by decide), if_neg (by decide)]; exact if_pos rfl
  by_cases he : ∃ k : Kind, m.type = k.name
  · obtain ⟨k, h⟩ := he
    rw [hk k h]
    refine ⟨?_, fun k' c => ?_⟩
    · rw [(hgo k).1]
      exact ⟨fun f => f.elim, fun f => f k h⟩
    · rw [(hgo k).2, ← hu]
      constructor
      · rintro ⟨rfl, h2⟩; exact ⟨h, h2⟩
      · rintro ⟨h1, h2⟩; exact ⟨hinj _ _ (h.symm.trans h1), h2⟩
  · have hn : clientApply zero m = .ok none := by
      unfold clientApply
      simp only
      rw [if_neg (show m.type ≠ bs "pod" from fun h => he ⟨.pod, h⟩), if_neg (show m.type ≠ bs "service" from fun h => he ⟨.service, h⟩),
        if_neg (show m.type ≠ bs "rs" from fun h => he ⟨.rs, h⟩), if_neg (show m.type ≠ bs "node" from fun h => he ⟨.node, h⟩)]
    rw [hn]
    exact ⟨⟨fun _ k h => he ⟨k, h⟩, fun _ => rfl⟩, fun k c => ⟨fun h => (nomatch h), fun h => (he ⟨k, h.1⟩).elim⟩⟩

/-- Finding: a message of a known type with an operation that is not known ends the client process. -/
theorem unknown_operation_panics (zero : O) (m : Msg O) (k : Kind) (hk : m.type = k.name)
    (h : m.op ≠ bs "add" ∧ m.op ≠ bs "update" ∧ m.op ≠ bs "delete") : clientApply zero m = .panic := by
  have hu : unwrapCall zero m = none := by
    unfold unwrapCall
    rw [if_neg h.1, if_neg h.2.1, if_neg h.2.2]
  unfold clientApply
  simp only [hu, hk]
  cases k <;> rfl

/-- Finding: the test for a missing object does not see `null`; the empty object is added. -/
theorem null_object_added (zero : O) (k : Kind) (old : Option (Raw O)) :
    clientApply zero ⟨k.name, bs "add", some .null, old⟩ = .ok (some (k, .add zero)) :=
  ((client_apply_spec zero _).2 k (.add zero)).2 ⟨rfl, .inl ⟨rfl, .null, zero, rfl, rfl, rfl⟩⟩

/-- Finding: pods are sent to the clients with their volumes, conditions and managed fields when they are added or updated; only
at their deletion these are removed. -/
theorem shrunk_only_on_delete (shrink : O → O) (o o' : O) :
    message .pod (served shrink .pod (.add o)) = ⟨bs "pod", bs "add", some (.obj o), some .null⟩ ∧
    message .pod (served shrink .pod (.update o o')) = ⟨bs "pod", bs "update", some (.obj o'), some (.obj o)⟩ ∧
    message .pod (served shrink .pod (.delete o)) = ⟨bs "pod", bs "delete", some .null, some (.obj (shrink o))⟩ := ⟨rfl, rfl, rfl⟩

/-! ### Lines -/

/-- What precedes the first line feed, with it, and what follows. -/
def takeLine : Bytes → Option (Bytes × Bytes)
  | [] => none
  | b :: r => if b = 10 then some ([10], r) else (takeLine r).map fun p => (b :: p.1, p.2)

/-- `bufio.Reader.ReadBytes('\n')` on a body that arrives in pieces: the line, whether the delimiter was found, what is left in the
buffer, and the pieces not yet read.  Simplified: the size of the buffer only determines how the library puts the line together. -/
def readBytes (buf : Bytes) : List Bytes → Bytes × Bool × Bytes × List Bytes
  | [] => match takeLine buf with
    | some (l, r) => (l, true, r, [])
    | none => (buf, false, [], [])
  | c :: cs => match takeLine buf with
    | some (l, r) => (l, true, r, c :: cs)
    | none => readBytes (buf ++ c) cs

theorem takeLine_some {b l r : Bytes} (h : takeLine b = some (l, r)) : b = l ++ r ∧ ∃ x, l = x ++ [10] ∧ 10 ∉ x := by
  induction b generalizing l with
  | nil => cases h
  | cons a b ih =>
    unfold takeLine at h
    split at h
    · next ha => cases h; subst ha; exact ⟨rfl, [], rfl, by simp⟩
    · next ha =>
      obtain ⟨p, hp, he⟩ := Option.map_eq_some_iff.1 h
      obtain ⟨h1, x, h2, h3⟩ := ih (l := p.1) (by rw [hp]; cases he; rfl)
      cases he
      refine ⟨by rw [h1]; rfl, a :: x, by rw [h2]; rfl, ?_⟩
      simp only [List.mem_cons, not_or]
      exact ⟨fun e => ha e.symm, h3⟩

theorem takeLine_none {b : Bytes} : takeLine b = none ↔ 10 ∉ b := by
  induction b with
  | nil => simp [takeLine]
  | cons a b ih =>
    unfold takeLine
    by_cases ha : a = 10
    · rw [if_pos ha]; simp [ha]
    · rw [if_neg ha, Option.map_eq_none_iff, ih]
      simp only [List.mem_cons, not_or]
      exact ⟨fun h => ⟨fun e => ha e.symm, h⟩, fun h => h.2⟩

theorem takeLine_line (x r : Bytes) (h : 10 ∉ x) : takeLine (x ++ 10 :: r) = some (x ++ [10], r) := by
  induction x with
  | nil => rfl
  | cons a x ih =>
    simp only [List.mem_cons, not_or] at h
    rw [List.cons_append, takeLine, if_neg (fun e => h.1 e.symm), ih h.2]
    rfl

theorem takeLine_append {b l r : Bytes} (h : takeLine b = some (l, r)) (c : Bytes) : takeLine (b ++ c) = some (l, r ++ c) := by
  obtain ⟨h1, x, h2, h3⟩ := takeLine_some h
  rw [h1, h2]
  simpa using takeLine_line x (r ++ c) h3

/-- Reading does not depend on how the body is cut into pieces. -/
theorem readBytes_flat (buf : Bytes) (cs : List Bytes) :
    (readBytes buf cs).1 = (readBytes (buf ++ cs.flatten) []).1 ∧ (readBytes buf cs).2.1 = (readBytes (buf ++ cs.flatten) []).2.1 ∧
    (readBytes buf cs).2.2.1 ++ (readBytes buf cs).2.2.2.flatten = (readBytes (buf ++ cs.flatten) []).2.2.1 := by
  induction cs generalizing buf with
  | nil =>
    simp only [List.flatten_nil, List.append_nil]
    refine ⟨trivial, trivial, ?_⟩
    unfold readBytes
    split <;> simp
  | cons c cs ih =>
    cases h : takeLine buf with
    | none =>
      have : readBytes buf (c :: cs) = readBytes (buf ++ c) cs := by rw [readBytes, h]
      rw [this, List.flatten_cons, ← List.append_assoc]
      exact ih (buf ++ c)
    | some p =>
      obtain ⟨l, r⟩ := p
      have h1 : readBytes buf (c :: cs) = (l, true, r, c :: cs) := by rw [readBytes, h]
      have h2 := takeLine_append h ((c :: cs).flatten)
      have h3 : readBytes (buf ++ (c :: cs).flatten) [] = (l, true, r ++ (c :: cs).flatten, []) := by rw [readBytes, h2]
      rw [h1, h3]
      exact ⟨rfl, rfl, rfl⟩

theorem readBytes_less (buf : Bytes) (cs : List Bytes) (h : (readBytes buf cs).2.1 = true) :
    (readBytes buf cs).2.2.1.length + (readBytes buf cs).2.2.2.flatten.length < buf.length + cs.flatten.length := by
  obtain ⟨_, h2, h3⟩ := readBytes_flat buf cs
  rw [h2] at h
  rw [← List.length_append, h3, ← List.length_append]
  generalize buf ++ cs.flatten = b at h ⊢
  unfold readBytes at h ⊢
  split at h
  · next l r hl =>
    obtain ⟨e, x, hx, _⟩ := takeLine_some hl
    rw [e, hx]
    simp only [List.length_append, List.length_cons, List.length_nil]
    omega
  · cases h

/-! ### The client -/

variable {L M : Type}

/-- The loop of the client (client.go:59-77): the messages it applies; `none` is a line that is no message, which is skipped. -/
def watchLoop (dec : Bytes → Option M) (buf : Bytes) (cs : List Bytes) : List (Option M) :=
  if _h : (readBytes buf cs).2.1 = true then
    dec (readBytes buf cs).1 :: watchLoop dec (readBytes buf cs).2.2.1 (readBytes buf cs).2.2.2
  else []
termination_by buf.length + cs.flatten.length
decreasing_by exact readBytes_less buf cs _h

inductive Outcome (L M : Type) where
  /-- an error is returned and the cache left as it is -/
  | error
  /-- the cache is set up from the list, the messages are applied, and the connection has ended -/
  | ran (l : L) (ms : List (Option M))
deriving DecidableEq, Repr

/-- `ListAndWatch` of the client (client.go:32-79) on an answer with that status and body.  The error of the first read is ignored
(41).  Simplified: messages that end the process are in `clientApply`. -/
def client (decL : Bytes → Option L) (decM : Bytes → Option M) (status : Nat) (body : List Bytes) : Outcome L M :=
  if status = 500 then .error
  else match decL (readBytes [] body).1 with
    | none => .error
    | some l => .ran l (watchLoop decM (readBytes [] body).2.2.1 (readBytes [] body).2.2.2)

/-- `encoding/json` on one type: a text has no line feed in it, is read back with and without one at its end, and no shorter part
of it is read at all.  Trusted: this holds for the structs of the provider, which are JSON objects. -/
structure Json (enc : M → Bytes) (dec : Bytes → Option M) : Prop where
  line : ∀ m, 10 ∉ enc m
  full : ∀ m, dec (enc m ++ [10]) = some m
  bare : ∀ m, dec (enc m) = some m
  cut : ∀ m p, p <+: enc m → p ≠ enc m → dec p = none

/-- What the provider writes to a client: the list (service.go:221-222), then every message (159), each with a line feed. -/
def stream (encL : L → Bytes) (encM : M → Bytes) (l : L) (ms : List M) : Bytes :=
  encL l ++ [10] ++ ms.flatMap fun m => encM m ++ [10]

theorem watchLoop_flat (dec : Bytes → Option M) (buf : Bytes) (cs : List Bytes) :
    watchLoop dec buf cs = watchLoop dec (buf ++ cs.flatten) [] := by
  have key : ∀ n (buf : Bytes) (cs : List Bytes), buf.length + cs.flatten.length = n →
      watchLoop dec buf cs = watchLoop dec (buf ++ cs.flatten) [] := by
    intro n
    induction n using Nat.strongRecOn with
    | _ n ih =>
      intro buf cs hn
      obtain ⟨h1, h2, h3⟩ := readBytes_flat buf cs
      have hnil : (readBytes (buf ++ cs.flatten) []).2.2.2 = [] := by
        unfold readBytes
        split <;> rfl
      rw [watchLoop, watchLoop.eq_def dec (buf ++ cs.flatten)]
      by_cases h : (readBytes buf cs).2.1 = true
      · rw [dif_pos h, dif_pos (h2 ▸ h), h1, hnil]
        congr 1
        rw [← h3]
        exact ih _ (by rw [← hn]; exact readBytes_less buf cs h) _ _ rfl
      · rw [dif_neg h, dif_neg (h2 ▸ h)]
  exact key _ buf cs rfl

/-- The first line of a body and the rest. -/
theorem watchLoop_line (dec : Bytes → Option M) (x r : Bytes) (h : 10 ∉ x) :
    watchLoop dec (x ++ 10 :: r) [] = dec (x ++ [10]) :: watchLoop dec r [] := by
  have h1 : readBytes (x ++ 10 :: r) [] = (x ++ [10], true, r, []) := by rw [readBytes, takeLine_line x r h]
  rw [watchLoop, h1]
  exact dif_pos rfl

theorem watchLoop_end (dec : Bytes → Option M) (x : Bytes) (h : 10 ∉ x) : watchLoop dec x [] = [] := by
  have h1 : readBytes x [] = (x, false, [], []) := by rw [readBytes, takeLine_none.2 h]
  rw [watchLoop, h1]
  exact dif_neg (by simp)

/-- Bytes of a list of messages. -/
def size (encM : M → Bytes) (ms : List M) : Nat := (ms.map fun m => (encM m).length + 1).sum

theorem watchLoop_take (encM : M → Bytes) (dec : Bytes → Option M) (hj : Json encM dec) (ms : List M) (n : Nat) :
    ∃ k ≤ ms.length, size encM (ms.take k) ≤ n ∧ (∀ m ∈ ms[k]?, n < size encM (ms.take k) + (encM m).length + 1) ∧
      watchLoop dec ((ms.flatMap fun m => encM m ++ [10]).take n) [] = (ms.take k).map some := by
  induction ms generalizing n with
  | nil => exact ⟨0, Nat.le_refl _, Nat.zero_le _, by simp, by simpa using watchLoop_end dec [] (by simp)⟩
  | cons m ms ih =>
    rw [List.flatMap_cons]
    by_cases hn : (encM m).length + 1 ≤ n
    · obtain ⟨k, h1, h2, h3, h4⟩ := ih (n - ((encM m).length + 1))
      refine ⟨k + 1, by simp; omega, ?_, ?_, ?_⟩
      · simp only [size, List.take_succ_cons, List.map_cons, List.sum_cons] at h2 ⊢
        omega
      · intro m' hm'
        have := h3 m' (by simpa using hm')
        simp only [size, List.take_succ_cons, List.map_cons, List.sum_cons] at this ⊢
        omega
      · rw [List.take_append, List.take_of_length_le (by simp; omega)]
        have e : (encM m ++ [10]).length = (encM m).length + 1 := by simp
        rw [e, List.append_assoc, List.singleton_append, watchLoop_line dec _ _ (hj.line m), hj.full, h4]
        simp
    · refine ⟨0, by simp, Nat.zero_le _, ?_, ?_⟩
      · intro m' hm'
        simp only [List.getElem?_cons_zero, Option.mem_def, Option.some.injEq] at hm'
        subst hm'
        simp only [size, List.take_zero, List.map_nil, List.sum_nil]
        omega
      · simp only [List.take_zero, List.map_nil]
        apply watchLoop_end
        rw [List.take_append_of_le_length (by simp; omega), List.take_append_of_le_length (by omega)]
        exact fun h => hj.line m (List.mem_of_mem_take h)

/-- Wherever the connection ends and in whatever pieces the body arrives: a list that did not arrive completely is an error and
leaves the cache alone; otherwise the cache is set up from exactly that list, and exactly the messages that arrived completely
are applied, in their order, none in part. -/
theorem client_reads (encL : L → Bytes) (decL : Bytes → Option L) (encM : M → Bytes) (decM : Bytes → Option M) (hl : Json encL decL)
    (hm : Json encM decM) (status : Nat) (hs : status ≠ 500) (l : L) (ms : List M) (n : Nat) (body : List Bytes)
    (hb : body.flatten = (stream encL encM l ms).take n) :
    (n < (encL l).length → client decL decM status body = .error) ∧
    ((encL l).length ≤ n → ∃ k ≤ ms.length, client decL decM status body = .ran l ((ms.take k).map some) ∧
      (k = 0 ∨ (encL l).length + 1 + size encM (ms.take k) ≤ n) ∧
      ∀ m ∈ ms[k]?, n < (encL l).length + 1 + size encM (ms.take k) + (encM m).length + 1) := by
  obtain ⟨h1, h2, h3⟩ := readBytes_flat [] body
  rw [List.nil_append, hb] at h1 h2 h3
  unfold client
  rw [if_neg hs]
  unfold stream at h1 h2 h3
  rw [List.append_assoc] at h1 h2 h3
  constructor
  · intro hn
    rw [List.take_append_of_le_length (by omega)] at h1
    have : 10 ∉ (encL l).take n := fun h => hl.line l (List.mem_of_mem_take h)
    rw [h1, readBytes, takeLine_none.2 this]
    simp only
    rw [hl.cut l _ (List.take_prefix _ _) (fun e => by have := congrArg List.length e; simp at this; omega)]
  · intro hn
    rw [List.take_append, List.take_of_length_le hn] at h1 h2 h3
    by_cases he : n = (encL l).length
    · rw [he, Nat.sub_self, List.take_zero, List.append_nil, readBytes, takeLine_none.2 (hl.line l)] at h1 h3
      simp only at h1 h3
      refine ⟨0, Nat.zero_le _, ?_, .inl rfl, ?_⟩
      · rw [h1, hl.bare]
        simp only [List.take_zero, List.map_nil]
        rw [watchLoop_flat, h3, watchLoop_end decM [] (by simp)]
      · intro m _
        omega
    · obtain ⟨k, k1, k2, k3, k4⟩ := watchLoop_take encM decM hm ms (n - (encL l).length - 1)
      have e : (([10] ++ ms.flatMap fun m => encM m ++ [10] : Bytes)).take (n - (encL l).length) =
          10 :: (ms.flatMap fun m => encM m ++ [10]).take (n - (encL l).length - 1) := by
        obtain ⟨j, hj⟩ : ∃ j, n - (encL l).length = j + 1 := ⟨n - (encL l).length - 1, by omega⟩
        rw [hj]
        rfl
      rw [e, readBytes, takeLine_line _ _ (hl.line l)] at h1 h3
      simp only at h1 h3
      refine ⟨k, k1, ?_, .inr (by omega), ?_⟩
      · rw [h1, hl.full]
        simp only
        rw [watchLoop_flat, h3, k4]
      · intro m hmm
        have := k3 m hmm
        omega

/-- The whole stream. -/
theorem client_reads_all_partial (encL : L → Bytes) (decL : Bytes → Option L) (encM : M → Bytes) (decM : Bytes → Option M) (hl : Json encL decL)
    (hm : Json encM decM) (status : Nat) (hs : status ≠ 500) (l : L) (ms : List M) (body : List Bytes)
    (hb : body.flatten = stream encL encM l ms) : client decL decM status body = .ran l (ms.map some) := by
  have hlen : (stream encL encM l ms).length = (encL l).length + 1 + size encM ms := by
    have : ∀ ms : List M, (ms.flatMap fun m => encM m ++ [10]).length = size encM ms := by
      intro ms
      induction ms with
      | nil => rfl
      | cons m ms ih => rw [List.flatMap_cons, List.length_append, ih]; simp [size]
    simp only [stream, List.length_append, this, List.length_cons, List.length_nil]
  obtain ⟨k, h1, h2, _, h4⟩ := (client_reads encL decL encM decM hl hm status hs l ms (stream encL encM l ms).length body
    (by rw [hb, List.take_length])).2 (by omega)
  by_cases hk : k = ms.length
  · rw [h2, hk, List.take_length]
  · have hk' : k < ms.length := by omega
    have := h4 ms[k] (by simp [hk'])
    have hsz : size encM ms = size encM (ms.take k) + size encM (ms.drop k) := by
      simp only [size]
      rw [← List.sum_append, ← List.map_append, List.take_append_drop]
    have hd : (encM ms[k]).length + 1 ≤ size encM (ms.drop k) := by
      rw [List.drop_eq_getElem_cons hk', size, List.map_cons, List.sum_cons]
      omega
    omega

/-- Finding: only the status 500 is looked at: the body of any other answer is read as a list. -/
theorem status_not_checked (decL : Bytes → Option L) (decM : Bytes → Option M) (status status' : Nat) (h : status ≠ 500) (h' : status' ≠ 500)
    (body : List Bytes) : client decL decM status body = client decL decM status' body := by
  unfold client
  rw [if_neg h, if_neg h']

/-- An encoding with these properties: numbers in unary, between brackets. -/
def encU (n : Nat) : Bytes := 91 :: List.replicate n 49 ++ [93]
def decU (b : Bytes) : Option Nat :=
  let c := if b.getLast? = some 10 then b.dropLast else b
  if c = encU (c.length - 2) then some (c.length - 2) else none

theorem jsonU : Json encU decU where
  line n := by simp [encU, List.mem_replicate]
  full n := by
    have : (encU n ++ [10]).getLast? = some 10 := by simp
    simp only [decU, this, if_true, List.dropLast_concat]
    simp [encU]
  bare n := by
    have : (encU n).getLast? = some 93 := by rw [encU, List.getLast?_concat]
    simp only [decU, this]
    simp [encU]
  cut n p hp hne := by
    have hl : p.length < (encU n).length := by
      rcases Nat.lt_or_ge p.length (encU n).length with h | h
      · exact h
      · exact absurd (hp.eq_of_length_le h) hne
    have h10 : p.getLast? ≠ some 10 := by
      intro h
      have := hp.subset (List.mem_of_getLast? h)
      simp [encU, List.mem_replicate] at this
    simp only [decU, if_neg h10]
    rw [if_neg]
    intro e
    have h93 : 93 ∈ p := by rw [e]; simp [encU]
    have hpre : p <+: 91 :: List.replicate n 49 := by
      have := hp
      rw [encU, List.prefix_concat_iff] at this
      rcases this with h | h
      · exact absurd (by rw [h]; rfl) hne
      · exact h
    have := hpre.subset h93
    simp [List.mem_replicate] at this

example : client decU decU 200 [[91, 49], [93, 10, 91], [49, 49, 93, 10, 91, 93], [10, 91]] = .ran 1 [some 2, some 0] := by
  obtain ⟨k, h1, h2, h3, h4⟩ := (client_reads encU decU encU decU jsonU jsonU 200 (by decide) 1 [2, 0, 5] 13 [[91, 49], [93, 10, 91], [49, 49, 93, 10, 91, 93], [10, 91]] (by decide)).2
    (by decide)
  match k, h1 with
  | 0, _ => exact absurd (h4 2 rfl) (by decide)
  | 1, _ => exact absurd (h4 0 rfl) (by decide)
  | 2, _ => exact h2
  | 3, _ => exact absurd h3 (by decide)

/-! ### A watcher of the provider -/

/-- A `Watcher` with its goroutine (service.go:226-275): the messages put into its channel so far, those still in it, those written to
the connection, whether its `WriteFlusher` is closed, whether it is still in `flushersMap`, and whether `watch` has returned. -/
structure W (E : Type) where
  sent : List E
  chan : List E
  out : List E
  closed : Bool
  listed : Bool
  done : Bool
deriving DecidableEq, Repr

variable {E : Type}

def W.new : W E := ⟨[], [], [], false, true, false⟩

/-- The capacity of the channel (service.go:225). -/
def cap : Nat := 10

/-- A step of the watcher's goroutine, or of one that puts a message into its channel or gives it up (`accept`, `drop`). -/
inductive WStep : W E → W E → Prop
  /-- service.go:159 -/
  | accept (w : W E) (e : E) (hl : w.listed = true) (hr : w.chan.length < cap) :
      WStep w { w with sent := w.sent ++ [e], chan := w.chan ++ [e] }
  /-- service.go:160-164, on the timeout -/
  | drop (w : W E) (hl : w.listed = true) : WStep w { w with closed := true, listed := false }
  /-- service.go:262-263, writeflusher.go:26-37 -/
  | write (w : W E) (e : E) (r : List E) (hd : w.done = false) (hc : w.chan = e :: r) (ho : w.closed = false) :
      WStep w { w with chan := r, out := w.out ++ [e] }
  /-- a write to the closed `WriteFlusher`: service.go:264-267, 206 -/
  | refused (w : W E) (e : E) (r : List E) (hd : w.done = false) (hc : w.chan = e :: r) (ho : w.closed = true) :
      WStep w { w with chan := r, listed := false, done := true }
  /-- a write that fails on the connection -/
  | failed (w : W E) (e : E) (r : List E) (hd : w.done = false) (hc : w.chan = e :: r) :
      WStep w { w with chan := r, closed := true, listed := false, done := true }
  /-- the request or the provider has ended: service.go:268-273, 206 -/
  | ended (w : W E) (hd : w.done = false) : WStep w { w with closed := true, listed := false, done := true }

inductive WRun : W E → W E → Prop
  | refl (w : W E) : WRun w w
  | tail {a b c : W E} : WRun a b → WStep b c → WRun a c

structure WInv (w : W E) : Prop where
  order : w.done = false → w.sent = w.out ++ w.chan
  pre : w.out <+: w.sent
  room : w.chan.length ≤ cap

theorem winv_step {w w' : W E} (h : WInv w) (hs : WStep w w') : WInv w' := by
  cases hs with
  | accept e hl hr =>
    refine ⟨fun hd => by simp only; rw [h.order hd, List.append_assoc], h.pre.trans (List.prefix_append _ _), ?_⟩
    simp only [List.length_append, List.length_cons, List.length_nil]
    omega
  | drop hl => exact ⟨h.order, h.pre, h.room⟩
  | write e r hd hc ho =>
    have := h.order hd
    rw [hc] at this
    refine ⟨fun _ => by simp only; rw [this]; simp, ⟨r, by simp only; rw [this]; simp⟩, ?_⟩
    have := h.room
    rw [hc] at this
    simp only [List.length_cons] at this ⊢
    omega
  | refused e r hd hc ho =>
    refine ⟨fun hd' => (nomatch hd'), h.pre, ?_⟩
    have := h.room
    rw [hc] at this
    simp only [List.length_cons] at this ⊢
    omega
  | failed e r hd hc =>
    refine ⟨fun hd' => (nomatch hd'), h.pre, ?_⟩
    have := h.room
    rw [hc] at this
    simp only [List.length_cons] at this ⊢
    omega
  | ended hd => exact ⟨fun hd' => (nomatch hd'), h.pre, h.room⟩

theorem winv_run {w w' : W E} (h : WInv w) (hs : WRun w w') : WInv w' := by
  induction hs with
  | refl => exact h
  | tail _ hs ih => exact winv_step ih hs

/-- What a client has been sent is always a beginning of the messages for it, in their order; while its request lasts the rest is in
the channel, at most ten messages. -/
theorem written_in_order (w : W E) (h : WRun W.new w) :
    w.out <+: w.sent ∧ (w.done = false → w.sent = w.out ++ w.chan ∧ w.sent.length ≤ w.out.length + 10) := by
  have hi := winv_run ⟨fun _ => rfl, List.prefix_refl _, Nat.zero_le _⟩ h
  refine ⟨hi.pre, fun hd => ⟨hi.order hd, ?_⟩⟩
  have := hi.room
  unfold cap at this
  rw [hi.order hd, List.length_append]
  omega

/-- A client that is given up is written nothing more. -/
theorem nothing_after_drop {w w' : W E} (hc : w.closed = true) (hl : w.listed = false) (h : WRun w w') :
    w'.out = w.out ∧ w'.sent = w.sent ∧ w'.closed = true ∧ w'.listed = false := by
  induction h with
  | refl => exact ⟨rfl, rfl, hc, hl⟩
  | tail _ hs ih =>
    obtain ⟨h1, h2, h3, h4⟩ := ih
    cases hs with
    | accept e hl hr => rw [h4] at hl; cases hl
    | drop hl => rw [h4] at hl; cases hl
    | write e r hd hc' ho => rw [h3] at ho; cases ho
    | refused e r hd hc' ho => exact ⟨h1, h2, h3, rfl⟩
    | failed e r hd hc' => exact ⟨h1, h2, rfl, rfl⟩
    | ended hd => exact ⟨h1, h2, rfl, rfl⟩

/-- If messages are left in its channel when it is given up, its goroutine ends the request at the next one, without waiting for anything. -/
theorem dropped_ends {w : W E} (hc : w.closed = true) (hd : w.done = false) (hn : w.chan ≠ []) :
    ∃ w', WStep w w' ∧ w'.done = true := by
  obtain ⟨e, r, h⟩ := List.exists_cons_of_ne_nil hn
  exact ⟨_, .refused w e r hd h hc, rfl⟩

/-- Finding: if its channel is empty the goroutine waits: as long as the client itself or the provider does not end the request, it stays
connected and is sent nothing. -/
theorem dropped_silent {w w' : W E} (hl : w.listed = false) (hn : w.chan = []) (hs : WStep w w') : w' = { w with closed := true, listed := false, done := true } := by
  cases hs with
  | accept e hl' hr => rw [hl] at hl'; cases hl'
  | drop hl' => rw [hl] at hl'; cases hl'
  | write e r hd hc' ho => rw [hn] at hc'; cases hc'
  | refused e r hd hc' ho => rw [hn] at hc'; cases hc'
  | failed e r hd hc' => rw [hn] at hc'; cases hc'
  | ended hd => rfl

/-! ### The timer of a broadcast -/

/-- One client in the loop of `broadcast` (service.go:153-168), after its channel has done what it does meanwhile: `f` tells whether a value is
in the channel of the timer.  `Reset` does not take it out (Go before 1.23; go.mod asks for 1.19).  A `select` with two ready cases may
take either. -/
inductive Offer (e : E) : Bool → W E → Bool → W E → Prop
  /-- there is room, or there is before ten seconds have passed -/
  | sent (f : Bool) (w : W E) (hl : w.listed = true) (hr : w.chan.length < cap) : Offer e f w f { w with sent := w.sent ++ [e], chan := w.chan ++ [e] }
  /-- the timer fires just when there is room, and the message is put into the channel -/
  | late (f : Bool) (w : W E) (hl : w.listed = true) (hr : w.chan.length < cap) : Offer e f w true { w with sent := w.sent ++ [e], chan := w.chan ++ [e] }
  /-- the value of the timer is taken; without one there already the channel was full for ten seconds -/
  | gaveUp (f : Bool) (w : W E) (hl : w.listed = true) (hf : f = true ∨ w.chan.length = cap) : Offer e f w false { w with closed := true, listed := false }

/-- `Range` over the clients. -/
inductive Offers (e : E) : Bool → List (W E) → Bool → List (W E) → Prop
  | nil (f : Bool) : Offers e f [] f []
  | cons {f f' f'' : Bool} {w w' : W E} {ws ws' : List (W E)} : Offer e f w f' w' → Offers e f' ws f'' ws' → Offers e f (w :: ws) f'' (w' :: ws')

/-- Each offer is a step of that client. -/
theorem offer_step {e : E} {f f' : Bool} {w w' : W E} (h : Offer e f w f' w') : WStep w w' := by
  cases h with
  | sent hl hr => exact .accept w e hl hr
  | late hl hr => exact .accept w e hl hr
  | gaveUp hl hf => exact .drop w hl

/-- As long as no value is left in the timer, only a client whose channel is full is given up, and its request will end: its channel is not
empty. -/
theorem fresh_timer_fair {e : E} {f' : Bool} {w w' : W E} (h : Offer e false w f' w') :
    w'.sent = w.sent ++ [e] ∧ w'.listed = true ∨ w.chan.length = 10 ∧ w'.closed = true ∧ w'.chan ≠ [] := by
  cases h with
  | sent hl hr => exact .inl ⟨rfl, hl⟩
  | late hl hr => exact .inl ⟨rfl, hl⟩
  | gaveUp hl hf =>
    rcases hf with hf | hf
    · cases hf
    · refine .inr ⟨hf, rfl, fun h => ?_⟩
      simp only at h
      rw [h] at hf
      cases hf

/-- Finding: a client that comes after a slow one may be given up though its channel is empty.  It then stays connected, is sent neither this
message nor any later one, and does not learn of it. -/
theorem healthy_client_dropped (e : E) (slow w : W E) (hs : slow.listed = true) (hsr : slow.chan.length < cap) (hl : w.listed = true)
    (hn : w.chan = []) (hd : w.done = false) :
    ∃ f ws', Offers e false [slow, w] f ws' ∧ ∃ slow' w', ws' = [slow', w'] ∧ slow'.sent = slow.sent ++ [e] ∧
      w'.done = false ∧ w'.out = w.out ∧ (∀ w'', WRun w' w'' → w''.out = w.out ∧ w''.sent = w.sent) ∧
      ∀ w'', WStep w' w'' → w''.done = true ∧ w''.out = w.out := by
  refine ⟨_, _, .cons (.late false slow hs hsr) (.cons (.gaveUp true w hl (.inl rfl)) (.nil _)), _, _, rfl, rfl, hd, rfl, ?_, ?_⟩
  · intro w'' h
    have := nothing_after_drop rfl rfl h
    exact ⟨this.1, this.2.1⟩
  · intro w'' h
    rw [dropped_silent (w := { w with closed := true, listed := false }) rfl hn h]
    exact ⟨rfl, rfl⟩

example : ∃ w : W Nat, WRun W.new w ∧ w.out = [1] ∧ w.chan = [2] ∧ w.listed = true :=
  ⟨⟨[1, 2], [2], [1], false, true, false⟩,
    ((WRun.refl _ |>.tail (.accept _ 1 rfl (by decide))).tail (.accept _ 2 rfl (by decide))).tail (.write _ 1 [2] rfl rfl rfl), rfl, rfl, rfl⟩

/-- A client that reads gets everything: whatever the messages, there is a course of its request in which all have been written to it, in order,
and it is still listed. -/
theorem all_written (es : List E) : ∃ w : W E, WRun W.new w ∧ w.out = es ∧ w.sent = es ∧ w.chan = [] ∧ w.listed = true ∧ w.done = false ∧ w.closed = false := by
  induction es using snoc_ind with
  | nil => exact ⟨_, .refl _, rfl, rfl, rfl, rfl, rfl, rfl⟩
  | snoc l e ih =>
    obtain ⟨w, h, h1, h2, h3, h4, h5, h6⟩ := ih
    refine ⟨_, (h.tail (.accept w e h4 (by rw [h3]; exact Nat.zero_lt_succ _))).tail (.write _ e [] h5 (by simp only; rw [h3]; rfl) h6), ?_, ?_, rfl, h4, h5, h6⟩
    · simp only; rw [h1]
    · simp only; rw [h2]

end Kindling.K8s.Stream
