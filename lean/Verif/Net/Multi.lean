import Verif.Net.Model
/-
C14: several DNS queries and answers on one TCP socket (network_analyzer.go:584-650, dns_parser.go:47-57).
-/
namespace Kindling.Net.Multi
open Kindling Kindling.Net

/-- The attributes `DnsId` and `DnsDomain` of a parsed message. -/
structure PMsg where
  id : Int
  domain : Bytes
deriving DecidableEq, Repr

/-- dns_parser.go:47-57 `dnsPair`: the first matching request, -1 (`none`) if there is none. -/
def pairMatch : List PMsg → PMsg → Option Nat
  | [], _ => none
  | q :: qs, r => if q.id = r.id ∧ q.domain = r.domain then some 0 else (pairMatch qs r).map (· + 1)

/-- A record: the index and event of the request and the response event (getRecordWithSinglePair). -/
structure MRec where
  idx : Nat
  req : Evt
  resp : Option Evt
deriving DecidableEq, Repr

/-- network_analyzer.go:612-635: the loop over the responses. -/
def matchResponses (parseResp : Evt → Option PMsg) (reqs : List Evt) (parsed : List PMsg) : List Evt → Option (List MRec)
  | [] => some []
  | resp :: rest =>
    match parseResp resp with
    | none => none
    | some p => match pairMatch parsed p with
      | none => none
      | some i => match reqs[i]? with
        | none => none   -- index out of range; excluded since |parsed| = |reqs|
        | some req => match matchResponses parseResp reqs parsed rest with
          | none => none
          | some l => some ({ idx := i, req := req, resp := some resp } :: l)

/-- network_analyzer.go:636-648: requests without a response. -/
def unmatched (matched : List Nat) : Nat → List Evt → List MRec
  | _, [] => []
  | i, req :: rest =>
    if i ∈ matched then unmatched matched (i + 1) rest
    else { idx := i, req := req, resp := none } :: unmatched matched (i + 1) rest

/-- network_analyzer.go:584-650 `parseMultipleRequests`; `none` is the Go `nil` (not this protocol). -/
def parseMultipleRequests (parseReq parseResp : Evt → Option PMsg) (requests : List Evt) (responses : Option (List Evt)) :
    Option (List MRec) :=
  match mapOpt parseReq requests with
  | none => none
  | some parsed => match responses with
    | none => some (unmatched [] 0 requests)
    | some resps => match matchResponses parseResp requests parsed resps with
      | none => none
      | some l => some (l ++ unmatched (l.map (·.idx)) 0 requests)

/-! ## Lemmas -/

theorem pairMatch_some {qs : List PMsg} {r : PMsg} {i : Nat} (h : pairMatch qs r = some i) : qs[i]? = some r := by
  induction qs generalizing i with
  | nil => simp [pairMatch] at h
  | cons q qs ih =>
    simp only [pairMatch] at h
    split at h
    · rename_i he; cases h; simp; cases q; cases r; simp_all
    · cases hm : pairMatch qs r with
      | none => simp [hm] at h
      | some j => simp [hm] at h; subst h; simp [ih hm]

theorem pairMatch_none {qs : List PMsg} {r : PMsg} : pairMatch qs r = none ↔ r ∉ qs := by
  induction qs with
  | nil => simp [pairMatch]
  | cons q qs ih =>
    simp only [pairMatch, List.mem_cons, not_or]
    split
    · rename_i he
      have : r = q := by cases q; cases r; simp_all
      simp [this]
    · rename_i he
      have : r ≠ q := by rintro rfl; simp at he
      simp [ih, this]

theorem mapOpt_get {α β : Type} {f : α → Option β} {l : List α} {l' : List β} (h : mapOpt f l = some l') (i : Nat) :
    l'[i]? = (l[i]?).bind f := by
  induction l generalizing l' i with
  | nil => simp [mapOpt] at h; subst h; simp
  | cons x r ih =>
    obtain ⟨y, ys, h1, h2, rfl⟩ := mapOpt_cons_eq_some.1 h
    cases i with
    | zero => simp [h1]
    | succ i => simp [ih h2]

/-- Each response gets the record of a request with its id and domain. -/
def Answers (parseReq parseResp : Evt → Option PMsg) (reqs : List Evt) (resp : Evt) (m : MRec) : Prop :=
  m.resp = some resp ∧ reqs[m.idx]? = some m.req ∧ (parseReq m.req).isSome ∧ parseReq m.req = parseResp resp

theorem matchResponses_spec {parseReq parseResp : Evt → Option PMsg} {reqs : List Evt} {parsed : List PMsg}
    (hp : mapOpt parseReq reqs = some parsed) (resps : List Evt) {l : List MRec}
    (h : matchResponses parseResp reqs parsed resps = some l) : All2 (Answers parseReq parseResp reqs) resps l := by
  induction resps generalizing l with
  | nil => simp [matchResponses] at h; subst h; exact .nil
  | cons r rest ih =>
    simp only [matchResponses] at h
    split at h
    · simp at h
    · rename_i p hr
      split at h
      · simp at h
      · rename_i i hm
        split at h
        · simp at h
        · rename_i req hreq
          split at h
          · simp at h
          · rename_i l' hl
            cases h
            refine .cons ⟨rfl, hreq, ?_⟩ (ih hl)
            have h1 := pairMatch_some hm
            rw [mapOpt_get hp, hreq] at h1
            simp only [Option.bind_some] at h1
            simp [h1, hr]

theorem mem_unmatched {matched : List Nat} {n : Nat} {reqs : List Evt} {m : MRec} :
    m ∈ unmatched matched n reqs ↔ n ≤ m.idx ∧ reqs[m.idx - n]? = some m.req ∧ m.idx ∉ matched ∧ m.resp = none := by
  induction reqs generalizing n with
  | nil => simp [unmatched]
  | cons q qs ih =>
    have step : (m ∈ unmatched matched (n + 1) qs) ↔ n + 1 ≤ m.idx ∧ (q :: qs)[m.idx - n]? = some m.req ∧ m.idx ∉ matched ∧ m.resp = none := by
      rw [ih]
      constructor
      · rintro ⟨a, b, c⟩
        refine ⟨a, ?_, c⟩
        rw [show m.idx - n = (m.idx - (n + 1)) + 1 by omega, List.getElem?_cons_succ]; exact b
      · rintro ⟨a, b, c⟩
        refine ⟨a, ?_, c⟩
        rw [show m.idx - n = (m.idx - (n + 1)) + 1 by omega, List.getElem?_cons_succ] at b; exact b
    simp only [unmatched]
    split
    · rename_i hn
      rw [step]
      constructor
      · rintro ⟨a, b⟩; exact ⟨by omega, b⟩
      · rintro ⟨a, b, c, d⟩
        refine ⟨?_, b, c, d⟩
        rcases Nat.lt_or_eq_of_le a with h | h
        · exact h
        · rw [← h] at c; exact absurd hn c
    · rename_i hn
      rw [List.mem_cons, step]
      constructor
      · rintro (rfl | ⟨a, b⟩)
        · simp [hn]
        · exact ⟨by omega, b⟩
      · rintro ⟨a, b, c, d⟩
        rcases Nat.lt_or_eq_of_le a with h | h
        · exact .inr ⟨h, b, c, d⟩
        · left
          rw [← h] at b
          simp at b
          cases m; simp_all

theorem unmatched_nodup (matched : List Nat) (n : Nat) (reqs : List Evt) : ((unmatched matched n reqs).map (·.idx)).Nodup := by
  induction reqs generalizing n with
  | nil => simp [unmatched]
  | cons q qs ih =>
    simp only [unmatched]
    split
    · exact ih _
    · simp only [List.map_cons, List.nodup_cons]
      refine ⟨?_, ih _⟩
      intro h
      obtain ⟨m, hm, he⟩ := List.mem_map.1 h
      have := (mem_unmatched.1 hm).1
      omega

/-! ## Properties -/

/-- C14: when the exchange is recognised, every response, in order, yields one record, attributed to a query
with the same transaction id and domain; the other records have no response and are exactly one per query
that got no response. -/
theorem dns_responses_attributed (parseReq parseResp : Evt → Option PMsg) (requests resps : List Evt) (recs : List MRec)
    (h : parseMultipleRequests parseReq parseResp requests (some resps) = some recs) :
    ∃ answered rest, recs = answered ++ rest ∧ All2 (Answers parseReq parseResp requests) resps answered ∧
      (∀ m ∈ rest, m.resp = none ∧ requests[m.idx]? = some m.req) ∧ (rest.map (·.idx)).Nodup ∧
      ∀ i, i < requests.length → ((∃ m ∈ rest, m.idx = i) ↔ ¬ ∃ m ∈ answered, m.idx = i) := by
  simp only [parseMultipleRequests] at h
  split at h
  · simp at h
  · rename_i parsed hp
    split at h
    · simp at h
    · rename_i l hl
      cases h
      refine ⟨l, _, rfl, matchResponses_spec hp resps hl, ?_, unmatched_nodup _ _ _, ?_⟩
      · intro m hm
        obtain ⟨_, b, _, d⟩ := mem_unmatched.1 hm
        exact ⟨d, by simpa using b⟩
      · intro i hi
        constructor
        · rintro ⟨m, hm, rfl⟩ ⟨m', hm', he⟩
          exact (mem_unmatched.1 hm).2.2.1 (he ▸ List.mem_map.2 ⟨m', hm', rfl⟩)
        · intro hn
          refine ⟨{ idx := i, req := requests[i], resp := none }, mem_unmatched.2 ⟨by simp, by simp [hi], ?_, rfl⟩, rfl⟩
          intro hm
          obtain ⟨m', hm', he⟩ := List.mem_map.1 hm
          exact hn ⟨m', hm', he⟩

/-- C14: with no response at all each query is reported exactly once, without response, in order. -/
theorem dns_no_response (parseReq parseResp : Evt → Option PMsg) (requests : List Evt) (recs : List MRec)
    (h : parseMultipleRequests parseReq parseResp requests none = some recs) :
    recs.map (·.req) = requests ∧ ∀ m ∈ recs, m.resp = none := by
  simp only [parseMultipleRequests] at h
  split at h
  · simp at h
  · cases h
    refine ⟨?_, fun m hm => (mem_unmatched.1 hm).2.2.2⟩
    rename_i hp
    clear hp
    generalize 0 = n
    induction requests generalizing n with
    | nil => simp [unmatched]
    | cons q qs ih =>
      simp only [unmatched, List.not_mem_nil, ↓reduceIte, List.map_cons]
      rw [ih]

/-- C14 in full, for exchanges in which no two responses have the same id and domain: each query is reported
exactly once.  (Otherwise a query can be reported twice: `dns_query_reported_twice`.) -/
theorem dns_each_query_once_partial (parseReq parseResp : Evt → Option PMsg) (requests resps : List Evt) (recs : List MRec)
    (h : parseMultipleRequests parseReq parseResp requests (some resps) = some recs)
    (hd : resps.Pairwise (fun a b => parseResp a ≠ parseResp b)) (i : Nat) (hi : i < requests.length) :
    (recs.map (·.idx)).count i = 1 := by
  obtain ⟨ans, rest, rfl, h1, h2, h3, h4⟩ := dns_responses_attributed _ _ _ _ _ h
  have hnd : (ans.map (·.idx)).Nodup := by
    clear h h2 h3 h4
    induction h1 with
    | nil => simp
    | cons ha hr ih =>
      rename_i a m as ms
      simp only [List.pairwise_cons] at hd
      simp only [List.map_cons, List.nodup_cons]
      refine ⟨?_, ih hd.2⟩
      intro hm
      obtain ⟨m', hm', he⟩ := List.mem_map.1 hm
      obtain ⟨a', ha', hans'⟩ := hr.mem_right hm'
      have e1 := ha.2.1; have e2 := hans'.2.1
      rw [he, e1] at e2
      have e3 : m.req = m'.req := by simpa using e2
      apply hd.1 a' ha'
      rw [← ha.2.2.2, ← hans'.2.2.2, e3]
  rw [List.map_append, List.count_append]
  by_cases hc : ∃ m ∈ ans, m.idx = i
  · have hn : ¬ ∃ m ∈ rest, m.idx = i := fun hh => (h4 i hi).1 hh hc
    have c1 : (ans.map (·.idx)).count i = 1 := by
      obtain ⟨m, hm, he⟩ := hc
      rw [List.Nodup.count hnd, if_pos (List.mem_map.2 ⟨m, hm, he⟩)]
    have c2 : (rest.map (·.idx)).count i = 0 := by
      rw [List.count_eq_zero]; intro hm
      obtain ⟨m, hm, he⟩ := List.mem_map.1 hm; exact hn ⟨m, hm, he⟩
    omega
  · have hr := (h4 i hi).2 hc
    have c1 : (rest.map (·.idx)).count i = 1 := by
      obtain ⟨m, hm, he⟩ := hr
      rw [List.Nodup.count h3, if_pos (List.mem_map.2 ⟨m, hm, he⟩)]
    have c2 : (ans.map (·.idx)).count i = 0 := by
      rw [List.count_eq_zero]; intro hm
      obtain ⟨m, hm, he⟩ := List.mem_map.1 hm; exact hc ⟨m, hm, he⟩
    omega

/-- The exchange is recognised as DNS exactly when every message parses and every response answers one of the queries. -/
theorem dns_recognised_iff (parseReq parseResp : Evt → Option PMsg) (requests resps : List Evt) :
    (parseMultipleRequests parseReq parseResp requests (some resps)).isSome ↔
      (∀ q ∈ requests, (parseReq q).isSome) ∧ ∀ r ∈ resps, (parseResp r).isSome ∧ ∃ q ∈ requests, parseReq q = parseResp r := by
  constructor
  · intro h
    obtain ⟨recs, h⟩ := Option.isSome_iff_exists.1 h
    have h' := h
    obtain ⟨ans, rest, rfl, h1, _⟩ := dns_responses_attributed _ _ _ _ _ h
    simp only [parseMultipleRequests] at h'
    split at h'
    · simp at h'
    · rename_i parsed hp
      refine ⟨fun q hq => ?_, fun r hr => ?_⟩
      · obtain ⟨y, _, hy⟩ := mapOpt_some hp hq; simp [hy]
      · obtain ⟨m, _, hm⟩ := h1.mem_left hr
        refine ⟨by rw [← hm.2.2.2]; exact hm.2.2.1, m.req, ?_, hm.2.2.2⟩
        exact List.mem_of_getElem? hm.2.1
  · rintro ⟨h1, h2⟩
    simp only [parseMultipleRequests]
    obtain ⟨parsed, hp⟩ := Option.isSome_iff_exists.1 (mapOpt_isSome h1)
    simp only [hp]
    have : (matchResponses parseResp requests parsed resps).isSome := by
      induction resps with
      | nil => rfl
      | cons r rest ih =>
        simp only [matchResponses]
        obtain ⟨ha, q, hq, he⟩ := h2 r (by simp)
        obtain ⟨p, hpr⟩ := Option.isSome_iff_exists.1 ha
        simp only [hpr]
        obtain ⟨y, hy, hfy⟩ := mapOpt_some hp hq
        rw [he, hpr] at hfy
        cases hfy
        cases hm : pairMatch parsed p with
        | none => exact absurd hy (pairMatch_none.1 hm)
        | some i =>
          have h3 := pairMatch_some hm
          rw [mapOpt_get hp] at h3
          cases hri : requests[i]? with
          | none => simp [hri] at h3
          | some req =>
            simp only [hri]
            obtain ⟨l, hl⟩ := Option.isSome_iff_exists.1 (ih (fun r' hr' => h2 r' (by simp [hr'])))
            simp [hl]
    obtain ⟨l, hl⟩ := Option.isSome_iff_exists.1 this
    simp [hl]

/-- A parser for the examples: the id is the first byte. -/
def exParse (e : Evt) : Option PMsg := e.data.head?.map (fun b => { id := b.toNat, domain := [] })
def ev (b : UInt8) : Evt := { pid := 1, fd := 2, data := [b] }

/-- Two queries answered in the other order: both are matched. -/
example : parseMultipleRequests exParse exParse [ev 1, ev 2, ev 3] (some [ev 2, ev 1]) =
    some [⟨1, ev 2, some (ev 2)⟩, ⟨0, ev 1, some (ev 1)⟩, ⟨2, ev 3, none⟩] := by decide

example : [ev 2, ev 1].Pairwise (fun a b => exParse a ≠ exParse b) := by decide

/-- C14 fails of the code when an answer is repeated: the query is reported twice. -/
theorem dns_query_reported_twice : parseMultipleRequests exParse exParse [ev 1] (some [ev 1, ev 1]) =
    some [⟨0, ev 1, some (ev 1)⟩, ⟨0, ev 1, some (ev 1)⟩] := by decide

/-- A repeated query is reported as unanswered although there is an answer for each copy. -/
theorem dns_repeated_query_unanswered : parseMultipleRequests exParse exParse [ev 1, ev 1] (some [ev 1, ev 1]) =
    some [⟨0, ev 1, some (ev 1)⟩, ⟨0, ev 1, some (ev 1)⟩, ⟨1, ev 1, none⟩] := by decide

end Kindling.Net.Multi
