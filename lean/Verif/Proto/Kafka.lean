import Verif.Proto.Rocketmq
/-
Model of collector/pkg/component/analyzer/network/protocol/kafka.
Properties C23 (headers), C67 (topics and error codes).
-/
namespace Kindling.Proto.Kafka
open Kindling Kindling.Agg Kindling.Proto
open Kindling.Proto.Rocketmq (orZero getInt readBytes_exact orZero_ok)

def kApi : Bytes := bs "kafka_api"
def kVersion : Bytes := bs "kafka_version"
def kId : Bytes := bs "kafka_id"
def kTopic : Bytes := bs "kafka_topic"
def kErrorCode : Bytes := bs "kafka_error_code"

/-- kafka_api.go:67-124 `kafka_apis`: key, lowest and highest version. -/
def apis : List (Int × Int × Int) := [
  (0, 0, 9), (1, 0, 12), (2, 0, 7), (3, 0, 11), (4, 0, 5), (5, 0, 3), (6, 0, 7), (7, 0, 3),
  (8, 0, 8), (9, 0, 8), (10, 0, 4), (11, 0, 7), (12, 0, 4), (13, 0, 4), (14, 0, 5), (15, 0, 5),
  (16, 0, 4), (17, 0, 1), (18, 0, 3), (19, 0, 7), (20, 0, 6), (21, 0, 2), (22, 0, 4), (23, 0, 4),
  (24, 0, 3), (25, 0, 3), (26, 0, 3), (27, 0, 1), (28, 0, 3), (29, 0, 2), (30, 0, 2), (31, 0, 2),
  (32, 0, 4), (33, 0, 2), (34, 0, 2), (35, 0, 2), (36, 0, 2), (37, 0, 3), (38, 0, 2), (39, 0, 2),
  (40, 0, 2), (41, 0, 2), (42, 0, 2), (43, 0, 2), (44, 0, 1), (45, 0, 0), (46, 0, 0), (47, 0, 0),
  (48, 0, 1), (49, 0, 1), (50, 0, 0), (51, 0, 0), (56, 0, 0), (57, 0, 0), (60, 0, 0), (61, 0, 0)]

/-- kafka_api.go:126-132 `IsValidVersion`. -/
def isValidVersion (api ver : Int) : Bool := match apis.find? (fun e => e.1 = api) with
  | none => false
  | some e => decide (e.2.1 ≤ ver ∧ ver ≤ e.2.2)

/-- Both message handlers end in `return false, true` on a read error and before any attribute is added. -/
def attempt (m : Msg) (r : Res Msg) : Res ((Bool × Bool) × Msg) := match r with
  | .ok m' => .ok ((true, true), m')
  | .err => .ok ((false, true), m)
  | .panic => .panic

/-! ## Requests -/

/-- kafka_request.go:14-49 `parseRequest`. -/
def requestHeader : ParseFn := fun m => do
  let len ← orZero (readInt32 m.data 0)
  if len ≤ 8 then pure ((false, true), m)
  else do
    let key ← orZero (readInt16 m.data 4)
    let ver ← orZero (readInt16 m.data 6)
    if !isValidVersion key ver then pure ((false, true), m)
    else do
      let corr ← orZero (readInt32 m.data 8)
      let clen ← orZero (readInt16 m.data 12)
      if corr < 0 ∨ clen < 0 then pure ((false, true), m)
      else if m.data.length < clen.toNat + 14 then pure ((false, true), m)
      else pure ((true, false), ((({ m with offset := clen.toNat + 14 } : Msg).add kApi (.int key)).add kVersion (.int ver)).add kId (.int corr))

/-- The number of topics and the name of the first: kafka_request_fetch.go:40-54, kafka_request_produce.go:34-42. -/
def topicAt (m : Msg) (off : Int) (compact : Bool) : Res Msg := do
  let (n, o) ← readArraySize m.data off compact
  if n > 0 then do
    let (t, _) ← readString m.data o compact
    pure (m.add kTopic (.str (Text.formatUtf8 t)))
  else pure m

/-- kafka_request_fetch.go:24-38: where the topics start. -/
def fetchOffset (m : Msg) (ver : Int) : Int :=
  m.offset + 12 + (if ver ≥ 3 then 4 else 0) + (if ver ≥ 4 then 1 else 0) + (if ver ≥ 7 then 8 else 0)

/-- kafka_request_fetch.go:16-58 `parseRequestFetch`. -/
def fetchRequest (m : Msg) : Res Msg :=
  let ver := getInt m.attrs kVersion
  topicAt m (fetchOffset m ver) (decide (ver ≥ 12))

/-- kafka_request_produce.go:16-46 `parseRequestProduce`. -/
def produceRequest (m : Msg) : Res Msg :=
  let ver := getInt m.attrs kVersion
  let compact := decide (ver ≥ 9)
  if ver ≥ 3 then do
    let (_, o) ← readNullableStringC m.data m.offset compact
    topicAt m (o + 6) compact
  else topicAt m (m.offset + 6) compact

/-- kafka_request.go:8-12. -/
def requestFF : FastFail := fun m => pure (decide (m.data.length < 12))
/-- kafka_request_fetch.go:8-12, kafka_response_fetch.go:8-12. -/
def fetchFF : FastFail := fun m => pure (decide (getInt m.attrs kApi ≠ 1))
/-- kafka_request_produce.go:8-12, kafka_response_produce.go:8-12. -/
def produceFF : FastFail := fun m => pure (decide (getInt m.attrs kApi ≠ 0))
/-- kafka_request_other.go:8-12, kafka_response_other.go:8-12. -/
def otherFF : FastFail := fun m => pure (decide (getInt m.attrs kApi ≤ 1))
/-- kafka_request_other.go:14-18, kafka_response_other.go:14-18. -/
def otherParse : ParseFn := fun m => pure ((true, true), m)

/-- kafka_parser.go:13-16. -/
def requestTree : Tree := ⟨requestFF, requestHeader,
  [⟨fetchFF, fun m => attempt m (fetchRequest m)⟩, ⟨produceFF, fun m => attempt m (produceRequest m)⟩, ⟨otherFF, otherParse⟩]⟩

def parseRequest (d : Bytes) : Res (Bool × Msg) := requestTree.single ⟨d, 0, []⟩

/-! ## Responses -/

/-- kafka_response.go:14-34 `parseResponse`. -/
def responseHeader : ParseFn := fun m => do
  let len ← orZero (readInt32 m.data 0)
  if len ≤ 4 then pure ((false, true), m)
  else do
    let corr ← orZero (readInt32 m.data 4)
    if !m.has kId || getInt m.attrs kId ≠ corr then pure ((false, true), m)
    else pure ((true, false), { m with offset := 8 })

/-- The error code of the first partition: kafka_response_fetch.go:47-56, kafka_response_produce.go:31-40. -/
def firstPartition (d : Bytes) (off : Int) (compact : Bool) (code : Int) : Res Int := do
  let (n, o) ← readArraySize d off compact
  if n > 0 then do
    let (c, _) ← readInt16 d (o + 4)
    pure c
  else pure code

/-- kafka_response_fetch.go:41-66: topics from `off` on; `parts`: the error code is in the first partition. -/
def responseTopic (m : Msg) (off : Int) (compact parts : Bool) (code : Int) : Res Msg := do
  let (n, o) ← readArraySize m.data off compact
  if n > 0 then do
    let (t, o) ← readString m.data o compact
    let code ← if parts then firstPartition m.data o compact code else pure code
    pure ((m.add kTopic (.str (Text.formatUtf8 t))).add kErrorCode (.int code))
  else pure (m.add kErrorCode (.int code))

/-- kafka_response_fetch.go:14-67 `parseResponseFetch`. -/
def fetchResponse (m : Msg) : Res Msg :=
  let ver := getInt m.attrs kVersion
  let compact := decide (ver ≥ 12)
  let off : Int := m.offset + (if ver ≥ 1 then 4 else 0)
  if ver ≥ 7 then do
    let (code, o) ← readInt16 m.data off
    responseTopic m (o + 4) compact false code
  else responseTopic m off compact true 0

/-- kafka_response_produce.go:14-50 `parseResponseProduce`. -/
def produceResponse (m : Msg) : Res Msg :=
  let ver := getInt m.attrs kVersion
  responseTopic m m.offset (decide (ver ≥ 9)) true 0

/-- kafka_response.go:8-12. -/
def responseFF : FastFail := fun m => pure (decide (m.data.length < 8))

/-- kafka_parser.go:18-21. -/
def responseTree : Tree := ⟨responseFF, responseHeader,
  [⟨fetchFF, fun m => attempt m (fetchResponse m)⟩, ⟨produceFF, fun m => attempt m (produceResponse m)⟩, ⟨otherFF, otherParse⟩]⟩

def parseResponse (d : Bytes) (a : Attrs) : Res (Bool × Msg) := responseTree.single ⟨d, 0, a⟩

/-! ## Specification -/

/-- A request: length, api key, version, correlation id, client id, body. -/
def request (len key ver corr : Nat) (client body : Bytes) : Bytes :=
  be32 len ++ (be16 key ++ (be16 ver ++ (be32 corr ++ (encString client ++ body))))

/-- The version is supported: an entry of the table covers it. -/
def Supported (key ver : Int) : Prop := ∃ lo hi, (key, lo, hi) ∈ apis ∧ lo ≤ ver ∧ ver ≤ hi

/-- An array of topics, the first with this name (versions before the flexible ones). -/
def topics (n : Nat) (name rest : Bytes) : Bytes := be32 n ++ (encString name ++ rest)

/-! ## Headers (C23) -/

theorem apis_keys : (apis.map (·.1)).Pairwise (· ≠ ·) := by decide +kernel

theorem valid_iff (key ver : Int) : isValidVersion key ver = true ↔ Supported key ver := by
  simp only [isValidVersion, Supported]
  constructor
  · intro h
    split at h
    · cases h
    · rename_i e he
      have h1 := List.find?_some he
      have h2 := List.mem_of_find?_eq_some he
      simp only [decide_eq_true_eq] at h1 h
      exact ⟨e.2.1, e.2.2, by rw [← h1]; exact h2, h⟩
  · rintro ⟨lo, hi, hm, h1, h2⟩
    have hk := apis_keys
    generalize apis = l at *
    induction l with
    | nil => simp at hm
    | cons e l ih =>
      rw [List.map_cons, List.pairwise_cons] at hk
      rw [List.find?_cons]
      rcases List.mem_cons.1 hm with rfl | hm'
      · simp [h1, h2]
      · have : e.1 ≠ key := hk.1 key (List.mem_map.2 ⟨_, hm', rfl⟩)
        simp only [this, decide_false]
        exact ih hm' hk.2

/-- Reading the fixed part. -/
theorem request_reads (len key ver corr : Nat) (client body : Bytes) (h1 : len < 2 ^ 32) (h2 : key < 2 ^ 16) (h3 : ver < 2 ^ 16) (h4 : corr < 2 ^ 32)
    (h5 : client.length < 2 ^ 15) :
    let d := request len key ver corr client body
    readInt32 d 0 = .ok (signed 32 len, 4) ∧ readInt16 d 4 = .ok (signed 16 key, 6) ∧ readInt16 d 6 = .ok (signed 16 ver, 8) ∧
    readInt32 d 8 = .ok (signed 32 corr, 12) ∧ readInt16 d 12 = .ok ((client.length : Int), 14) ∧ d.length = 14 + client.length + body.length := by
  intro d
  have hl : d.length = 14 + client.length + body.length := by simp [d, request, be16, be32, encString]; omega
  have e : d = be32 len ++ (be16 key ++ (be16 ver ++ (be32 corr ++ (be16 client.length ++ (client ++ body))))) := by simp [d, request, encString]
  have r0 := readInt32_be len h1 [] (be16 key ++ (be16 ver ++ (be32 corr ++ (be16 client.length ++ (client ++ body)))))
  have r1 := readInt16_be key h2 (be32 len) (be16 ver ++ (be32 corr ++ (be16 client.length ++ (client ++ body))))
  have r2 := readInt16_be ver h3 (be32 len ++ be16 key) (be32 corr ++ (be16 client.length ++ (client ++ body)))
  have r3 := readInt32_be corr h4 (be32 len ++ (be16 key ++ be16 ver)) (be16 client.length ++ (client ++ body))
  have r4 := readInt16_be client.length (by omega) (be32 len ++ (be16 key ++ (be16 ver ++ be32 corr))) (client ++ body)
  rw [signed_small (by simpa using h5)] at r4
  simp only [List.append_assoc, List.nil_append] at r0 r1 r2 r3 r4
  rw [← e] at r0 r1 r2 r3 r4
  exact ⟨r0, r1, r2, r3, r4, hl⟩

/-- The header as specified. -/
def HeaderOk (len key ver corr : Int) : Prop := 8 < len ∧ Supported key ver ∧ 0 ≤ corr

/-- The message after the header. -/
def afterHeader (d : Bytes) (client : Bytes) (key ver corr : Int) : Msg :=
  (((⟨d, client.length + 14, []⟩ : Msg).add kApi (.int key)).add kVersion (.int ver)).add kId (.int corr)

theorem header_run (len key ver corr : Nat) (client body : Bytes) (h1 : len < 2 ^ 32) (h2 : key < 2 ^ 16) (h3 : ver < 2 ^ 16) (h4 : corr < 2 ^ 32)
    (h5 : client.length < 2 ^ 15) :
    (HeaderOk (signed 32 len) (signed 16 key) (signed 16 ver) (signed 32 corr) ∧
      requestHeader ⟨request len key ver corr client body, 0, []⟩ =
        .ok ((true, false), afterHeader (request len key ver corr client body) client (signed 16 key) (signed 16 ver) (signed 32 corr))) ∨
    (¬ HeaderOk (signed 32 len) (signed 16 key) (signed 16 ver) (signed 32 corr) ∧
      requestHeader ⟨request len key ver corr client body, 0, []⟩ = .ok ((false, true), ⟨request len key ver corr client body, 0, []⟩)) := by
  obtain ⟨r0, r1, r2, r3, r4, hl⟩ := request_reads len key ver corr client body h1 h2 h3 h4 h5
  generalize request len key ver corr client body = d at *
  simp only [requestHeader, r0, r1, r2, r3, r4, orZero, Res.bind_ok, HeaderOk]
  by_cases c1 : signed 32 len ≤ 8
  · right; simp only [c1, ↓reduceIte]; exact ⟨fun h => by omega, rfl⟩
  · rw [if_neg c1]
    by_cases c2 : isValidVersion (signed 16 key) (signed 16 ver) = true
    · simp only [c2, Bool.not_true, Bool.false_eq_true, ↓reduceIte]
      by_cases c3 : signed 32 corr < 0
      · right; rw [if_pos (.inl c3)]; exact ⟨fun h => by omega, rfl⟩
      · left
        rw [if_neg (by omega), if_neg (by omega)]
        exact ⟨⟨by omega, (valid_iff _ _).1 c2, by omega⟩, rfl⟩
    · right
      simp only [c2, Bool.not_false, ↓reduceIte]
      exact ⟨fun h => c2 ((valid_iff _ _).2 h.2.1), rfl⟩

theorem keys_differ : kApi ≠ kVersion ∧ kApi ≠ kId ∧ kVersion ≠ kId ∧ kApi ≠ kTopic ∧ kVersion ≠ kTopic ∧ kId ≠ kTopic ∧ kTopic ≠ kErrorCode ∧
  kApi ≠ kErrorCode ∧ kVersion ≠ kErrorCode ∧ kId ≠ kErrorCode := by decide +kernel

theorem after_attrs (d client : Bytes) (key ver corr : Int) :
    AMap.get (afterHeader d client key ver corr).attrs kApi = some (.int key) ∧ AMap.get (afterHeader d client key ver corr).attrs kVersion = some (.int ver) ∧
    AMap.get (afterHeader d client key ver corr).attrs kId = some (.int corr) := by
  obtain ⟨k1, k2, k3, -⟩ := keys_differ
  simp only [afterHeader, Msg.add]
  refine ⟨?_, ?_, ?_⟩
  · rw [AMap.get_set_ne _ _ (Ne.symm k2), AMap.get_set_ne _ _ (Ne.symm k1), AMap.get_set_self]
  · rw [AMap.get_set_ne _ _ (Ne.symm k3), AMap.get_set_self]
  · rw [AMap.get_set_self]

theorem after_oneway (d client : Bytes) (key ver corr : Int) : AMap.get (afterHeader d client key ver corr).attrs (bs "one_way") = none := by
  simp only [afterHeader, Msg.add]
  rw [AMap.get_set_ne _ _ (by decide +kernel), AMap.get_set_ne _ _ (by decide +kernel), AMap.get_set_ne _ _ (by decide +kernel)]; rfl

/-- Which of the three bodies is parsed. -/
def body (f p : Msg → Res Msg) (m : Msg) : Res Msg :=
  if getInt m.attrs kApi = 1 then f m else if getInt m.attrs kApi = 0 then p m else if getInt m.attrs kApi ≤ 1 then .err else .ok m

theorem children_run (f p : Msg → Res Msg) (m : Msg) :
    (do let (s, m') ← runChildren [⟨fetchFF, fun m => attempt m (f m)⟩, ⟨produceFF, fun m => attempt m (p m)⟩, ⟨otherFF, otherParse⟩] m
        pure (decide (s ≠ Status.fail), m')) = match body f p m with
      | .ok m' => .ok (true, m')
      | .err => .ok (false, m)
      | .panic => .panic := by
  simp only [runChildren, Leaf.run, fetchFF, produceFF, otherFF, otherParse, body, Res.pure_eq, Res.bind_ok]
  by_cases h1 : getInt m.attrs kApi = 1
  · simp only [h1, ne_eq, not_true_eq_false, decide_false, Bool.false_eq_true, ↓reduceIte]
    cases hf : f m with
    | ok m' => simp [attempt]
    | err => simp [attempt, h1]
    | panic => simp [attempt]
  · simp only [h1, ne_eq, not_false_eq_true, decide_true, ↓reduceIte, Res.bind_ok]
    by_cases h0 : getInt m.attrs kApi = 0
    · simp only [h0, not_true_eq_false, decide_false, Bool.false_eq_true, ↓reduceIte]
      cases hf : p m with
      | ok m' => simp [attempt]
      | err => simp [attempt, h0]
      | panic => simp [attempt]
    · simp only [h0, not_false_eq_true, decide_true, ↓reduceIte, Res.bind_ok]
      by_cases h2 : getInt m.attrs kApi ≤ 1 <;> simp [h2]

/-- Requests with a rejected header fail, the others depend on their body. -/
theorem request_run (len key ver corr : Nat) (client rest : Bytes) (h1 : len < 2 ^ 32) (h2 : key < 2 ^ 16) (h3 : ver < 2 ^ 16) (h4 : corr < 2 ^ 32)
    (h5 : client.length < 2 ^ 15) :
    (HeaderOk (signed 32 len) (signed 16 key) (signed 16 ver) (signed 32 corr) →
      parseRequest (request len key ver corr client rest) =
        match body fetchRequest produceRequest (afterHeader (request len key ver corr client rest) client (signed 16 key) (signed 16 ver) (signed 32 corr)) with
        | .ok m' => .ok (true, m')
        | .err => .ok (false, afterHeader (request len key ver corr client rest) client (signed 16 key) (signed 16 ver) (signed 32 corr))
        | .panic => .panic) ∧
    (¬ HeaderOk (signed 32 len) (signed 16 key) (signed 16 ver) (signed 32 corr) →
      parseRequest (request len key ver corr client rest) = .ok (false, ⟨request len key ver corr client rest, 0, []⟩)) := by
  have hl := (request_reads len key ver corr client rest h1 h2 h3 h4 h5).2.2.2.2.2
  have hff : requestFF ⟨request len key ver corr client rest, 0, []⟩ = .ok false := by
    simp only [requestFF, hl, Res.pure_eq]; congr 1; simp; omega
  rcases header_run len key ver corr client rest h1 h2 h3 h4 h5 with ⟨ho, hr⟩ | ⟨ho, hr⟩
  · refine ⟨fun _ => ?_, fun h => absurd ho h⟩
    rw [← children_run]
    simp only [parseRequest, Tree.single, Tree.run, requestTree, hff, hr, Res.bind_ok, Bool.false_eq_true, ↓reduceIte, Bool.not_true, List.isEmpty_cons]
  · refine ⟨fun h => absurd h ho, fun _ => ?_⟩
    simp only [parseRequest, Tree.single, Tree.run, requestTree, hff, hr, Res.bind_ok, Bool.false_eq_true, ↓reduceIte, Bool.not_false, Res.pure_eq]
    rfl

/-- C23: a request is refused if its header is not acceptable; a request other than Produce and Fetch is recognised
iff its header is acceptable, and key, version and correlation id are reported. -/
theorem kafka_header_iff_partial (len key ver corr : Nat) (client rest : Bytes) (h1 : len < 2 ^ 32) (h2 : key < 2 ^ 16) (h3 : ver < 2 ^ 16) (h4 : corr < 2 ^ 32)
    (h5 : client.length < 2 ^ 15) :
    (¬ HeaderOk (signed 32 len) (signed 16 key) (signed 16 ver) (signed 32 corr) → ∃ m, parseRequest (request len key ver corr client rest) = .ok (false, m)) ∧
    (2 ≤ key → ((∃ m, parseRequest (request len key ver corr client rest) = .ok (true, m)) ↔ HeaderOk (signed 32 len) (signed 16 key) (signed 16 ver) (signed 32 corr))) ∧
    ∀ m, parseRequest (request len key ver corr client rest) = .ok (true, m) →
      AMap.get m.attrs (bs "kafka_api") = some (.int (signed 16 key)) ∧ AMap.get m.attrs (bs "kafka_version") = some (.int (signed 16 ver)) ∧ AMap.get m.attrs (bs "kafka_id") = some (.int (signed 32 corr)) := by
  rw [show bs "kafka_api" = kApi from rfl, show bs "kafka_version" = kVersion from rfl, show bs "kafka_id" = kId from rfl] at *
  obtain ⟨g1, g2⟩ := request_run len key ver corr client rest h1 h2 h3 h4 h5
  have hneg : ¬ HeaderOk (signed 32 len) (signed 16 key) (signed 16 ver) (signed 32 corr) → ∃ m, parseRequest (request len key ver corr client rest) = .ok (false, m) :=
    fun h => ⟨_, g2 h⟩
  have hat := after_attrs (request len key ver corr client rest) client (signed 16 key) (signed 16 ver) (signed 32 corr)
  obtain ⟨-, -, -, k4, k5, k6, -⟩ := keys_differ
  refine ⟨hneg, ?_, ?_⟩
  · intro hk
    constructor
    · rintro ⟨m, hm⟩
      by_cases h : HeaderOk (signed 32 len) (signed 16 key) (signed 16 ver) (signed 32 corr)
      · exact h
      · obtain ⟨m', hm'⟩ := hneg h
        rw [hm] at hm'; cases hm'
    · intro h
      have hpos : (2 : Int) ≤ signed 16 key := by
        obtain ⟨-, ⟨lo, hi, hm, -⟩, -⟩ := h
        have hall : ∀ e ∈ apis, 0 ≤ e.1 := by decide +kernel
        have h0 := hall _ hm
        simp only at h0
        simp only [signed] at h0 ⊢
        rw [Nat.mod_eq_of_lt (by omega)] at h0 ⊢
        split at h0
        · rename_i hh; rw [if_pos hh]; omega
        · exfalso; omega
      rw [g1 h]
      have hb : getInt (afterHeader (request len key ver corr client rest) client (signed 16 key) (signed 16 ver) (signed 32 corr)).attrs kApi = signed 16 key := by
        simp only [getInt, hat.1]
      simp only [body, hb]
      rw [if_neg (by omega), if_neg (by omega), if_neg (by omega)]
      exact ⟨_, rfl⟩
  · intro m hm
    by_cases h : HeaderOk (signed 32 len) (signed 16 key) (signed 16 ver) (signed 32 corr)
    · rw [g1 h] at hm
      generalize hM : afterHeader (request len key ver corr client rest) client (signed 16 key) (signed 16 ver) (signed 32 corr) = M at *
      have htop : ∀ off c m', topicAt M off c = .ok m' → AMap.get m'.attrs kApi = AMap.get M.attrs kApi ∧ AMap.get m'.attrs kVersion = AMap.get M.attrs kVersion ∧
          AMap.get m'.attrs kId = AMap.get M.attrs kId := by
        intro off c m' h
        simp only [topicAt] at h
        cases hr : readArraySize M.data off c with
        | err => simp [hr] at h
        | panic => simp [hr] at h
        | ok p =>
          simp only [hr, Res.bind_ok] at h
          by_cases hp : p.1 > 0
          · rw [if_pos hp] at h
            cases hs : readString M.data p.2 c with
            | err => simp [hs] at h
            | panic => simp [hs] at h
            | ok q =>
              simp only [hs, Res.bind_ok, Res.pure_eq, Res.ok.injEq] at h
              subst h
              simp only [Msg.add]
              rw [AMap.get_set_ne _ _ (Ne.symm k4), AMap.get_set_ne _ _ (Ne.symm k5), AMap.get_set_ne _ _ (Ne.symm k6)]
              exact ⟨rfl, rfl, rfl⟩
          · rw [if_neg hp] at h
            simp only [Res.pure_eq, Res.ok.injEq] at h
            subst h; exact ⟨rfl, rfl, rfl⟩
      have hbody : ∀ m', body fetchRequest produceRequest M = .ok m' → AMap.get m'.attrs kApi = AMap.get M.attrs kApi ∧
          AMap.get m'.attrs kVersion = AMap.get M.attrs kVersion ∧ AMap.get m'.attrs kId = AMap.get M.attrs kId := by
        intro m' h
        simp only [body] at h
        split at h
        · exact htop _ _ _ h
        · split at h
          · simp only [produceRequest] at h
            split at h
            · cases hr : readNullableStringC M.data (M.offset : Int) (decide (getInt M.attrs kVersion ≥ 9)) with
              | err => simp [hr] at h
              | panic => simp [hr] at h
              | ok p => simp only [hr, Res.bind_ok] at h; exact htop _ _ _ h
            · exact htop _ _ _ h
          · split at h
            · cases h
            · cases h; exact ⟨rfl, rfl, rfl⟩
      cases hb : body fetchRequest produceRequest M with
      | err => simp [hb] at hm
      | panic => simp [hb] at hm
      | ok m' =>
        simp only [hb, Res.ok.injEq, Prod.mk.injEq, true_and] at hm
        subst hm
        obtain ⟨e1, e2, e3⟩ := hbody m' hb
        rw [e1, e2, e3]; exact hat
    · obtain ⟨m', hm'⟩ := hneg h
      rw [hm] at hm'; cases hm'

/-! ## Topics (C67) -/

theorem array_size (n : Nat) (h : n < 2 ^ 31) (pre post : Bytes) : readArraySize (pre ++ (be32 n ++ post)) pre.length false = .ok ((n : Int), ((pre ++ be32 n).length : Nat)) := by
  have r := readInt32_be n (by omega) pre post
  rw [List.append_assoc, signed_small (by simpa using h)] at r
  simp only [readArraySize, Bool.false_eq_true, ↓reduceIte, readArraySizePlain, r, Res.bind_ok]
  rw [if_neg (by omega), if_neg (by omega)]
  simp [be32]

theorem topicAt_topics (m : Msg) (pre name rest : Bytes) (n : Nat) (h0 : 0 < n) (h : n < 2 ^ 31) (hn : name.length < 2 ^ 15)
    (hd : m.data = pre ++ topics n name rest) : topicAt m pre.length false = .ok (m.add kTopic (.str (Text.formatUtf8 name))) := by
  have r1 := array_size n h pre (encString name ++ rest)
  have r2 := string_roundtrip name (pre ++ be32 n) rest (by simpa using hn)
  simp only [List.append_assoc] at r2
  simp only [topics] at hd
  simp only [topicAt, hd, r1, Res.bind_ok]
  rw [if_pos (by omega), List.length_append]
  simp only [List.length_append] at r2
  rw [r2]
  rfl

/-- The body of a Produce request before the flexible version 9: transactional id (from version 3), acks, timeout. -/
def produceBody (ver : Nat) (tid : Option Bytes) (acksTimeout : Bytes) (tail : Bytes) : Bytes :=
  (if 3 ≤ ver then encNullable tid else []) ++ (acksTimeout ++ tail)

theorem supported_of {key ver : Nat} {hi : Int} (h : ((key : Int), (0 : Int), hi) ∈ apis) (hv : (ver : Int) ≤ hi) : Supported key ver :=
  ⟨0, hi, h, by omega, hv⟩

theorem header_ok {len key ver corr : Nat} {hi : Int} (hl0 : 8 < len) (hl : len < 2 ^ 31) (hc : corr < 2 ^ 31) (hk : key < 2 ^ 15) (hv : ver < 2 ^ 15)
    (h : ((key : Int), (0 : Int), hi) ∈ apis) (hh : (ver : Int) ≤ hi) : HeaderOk (signed 32 len) (signed 16 key) (signed 16 ver) (signed 32 corr) := by
  rw [@signed_small 32 len (by simpa using hl), @signed_small 32 corr (by simpa using hc), @signed_small 16 key (by simpa using hk), @signed_small 16 ver (by simpa using hv)]
  exact ⟨by omega, supported_of h hh, by omega⟩

/-- The head of a request, before its body. -/
def head (len key ver corr : Nat) (client : Bytes) : Bytes := be32 len ++ (be16 key ++ (be16 ver ++ (be32 corr ++ encString client)))

theorem request_head (len key ver corr : Nat) (client body : Bytes) : request len key ver corr client body = head len key ver corr client ++ body := by
  simp [request, head]

theorem head_length (len key ver corr : Nat) (client : Bytes) : (head len key ver corr client).length = client.length + 14 := by
  simp [head, be16, be32, encString]

/-- C67: the topic of a Produce request of versions 0 to 8 is reported. -/
theorem kafka_produce_topic_partial (len ver corr : Nat) (client : Bytes) (tid : Option Bytes) (at6 : Bytes) (n : Nat) (name rest : Bytes)
    (hl0 : 8 < len) (hl : len < 2 ^ 31) (hv : ver ≤ 8) (hc : corr < 2 ^ 31) (hcl : client.length < 2 ^ 15) (ht : ∀ x, tid = some x → x.length < 2 ^ 15) (h6 : at6.length = 6)
    (h0 : 0 < n) (hn : n < 2 ^ 31) (hname : name.length < 2 ^ 15) :
    ∃ m, parseRequest (request len 0 ver corr client (produceBody ver tid at6 (topics n name rest))) = .ok (true, m) ∧
      AMap.get m.attrs (bs "kafka_topic") = some (.str (Text.formatUtf8 name)) ∧ AMap.get m.attrs (bs "one_way") = none := by
  rw [show bs "kafka_topic" = kTopic from rfl]
  have hok := header_ok (key := 0) (ver := ver) (corr := corr) (len := len) (hi := 9) hl0 hl hc (by omega) (by omega) (by decide) (by omega)
  rw [(request_run len 0 ver corr client _ (by omega) (by omega) (by omega) (by omega) hcl).1 hok]
  have how := after_oneway (request len 0 ver corr client (produceBody ver tid at6 (topics n name rest))) client (signed 16 0) (signed 16 ver) (signed 32 corr)
  have hat := after_attrs (request len 0 ver corr client (produceBody ver tid at6 (topics n name rest))) client (signed 16 0) (signed 16 ver) (signed 32 corr)
  have hv1 : signed 16 ver = ver := signed_small (by simp; omega)
  have hk1 : signed 16 0 = 0 := by decide
  rw [hv1, hk1] at hat how ⊢
  have hdat : (afterHeader (request len 0 ver corr client (produceBody ver tid at6 (topics n name rest))) client 0 ver (signed 32 corr)).data =
    head len 0 ver corr client ++ produceBody ver tid at6 (topics n name rest) := by rw [← request_head]; rfl
  have hoff : (afterHeader (request len 0 ver corr client (produceBody ver tid at6 (topics n name rest))) client 0 ver (signed 32 corr)).offset =
    (head len 0 ver corr client).length := by rw [head_length]; rfl
  generalize afterHeader (request len 0 ver corr client (produceBody ver tid at6 (topics n name rest))) client 0 ver (signed 32 corr) = m at *
  generalize head len 0 ver corr client = hd at *
  have ha : getInt m.attrs kApi = 0 := by simp only [getInt, hat.1]
  have hver : getInt m.attrs kVersion = ver := by simp only [getInt, hat.2.1]
  have hb : produceRequest m = .ok (m.add kTopic (.str (Text.formatUtf8 name))) := by
    simp only [produceRequest, hver]
    have hcomp : decide ((ver : Int) ≥ 9) = false := by simp; omega
    rw [hcomp]
    by_cases h3 : 3 ≤ ver
    · rw [if_pos (by omega)]
      have e : produceBody ver tid at6 (topics n name rest) = encNullable tid ++ (at6 ++ topics n name rest) := by simp [produceBody, h3]
      rw [e] at hdat
      have r := nullable_string_roundtrip tid hd (at6 ++ topics n name rest) (fun x hx => by simpa using ht x hx)
      rw [List.append_assoc, ← hdat, ← hoff] at r
      rw [r]
      simp only [Res.bind_ok]
      have := topicAt_topics m (hd ++ encNullable tid ++ at6) name rest n h0 hn hname (by rw [hdat]; simp)
      rw [← this]
      congr 1
      simp only [hoff, List.length_append, h6]; omega
    · rw [if_neg (by omega)]
      have e : produceBody ver tid at6 (topics n name rest) = at6 ++ topics n name rest := by simp [produceBody, h3]
      rw [e] at hdat
      have := topicAt_topics m (hd ++ at6) name rest n h0 hn hname (by rw [hdat]; simp)
      rw [← this]
      congr 1
      simp only [hoff, List.length_append, h6]; omega
  simp only [body, ha, hb]
  refine ⟨_, rfl, ?_, ?_⟩
  · simp only [Msg.add]; rw [AMap.get_set_self]
  · simp only [Msg.add]; rw [AMap.get_set_ne _ _ (by decide +kernel)]; exact how

/-- The body of a Fetch request before the flexible version 12: the fields before the topics. -/
def fetchFields (ver : Nat) : Nat := 12 + (if 3 ≤ ver then 4 else 0) + (if 4 ≤ ver then 1 else 0) + (if 7 ≤ ver then 8 else 0)

/-- C67: the topic of a Fetch request of versions 0 to 11 is reported. -/
theorem kafka_fetch_topic_partial (len ver corr : Nat) (client fields : Bytes) (n : Nat) (name rest : Bytes)
    (hl0 : 8 < len) (hl : len < 2 ^ 31) (hv : ver ≤ 11) (hc : corr < 2 ^ 31) (hcl : client.length < 2 ^ 15) (hf : fields.length = fetchFields ver)
    (h0 : 0 < n) (hn : n < 2 ^ 31) (hname : name.length < 2 ^ 15) :
    ∃ m, parseRequest (request len 1 ver corr client (fields ++ topics n name rest)) = .ok (true, m) ∧
      AMap.get m.attrs (bs "kafka_topic") = some (.str (Text.formatUtf8 name)) ∧ AMap.get m.attrs (bs "one_way") = none := by
  rw [show bs "kafka_topic" = kTopic from rfl]
  have hok := header_ok (key := 1) (ver := ver) (corr := corr) (len := len) (hi := 12) hl0 hl hc (by omega) (by omega) (by decide) (by omega)
  rw [(request_run len 1 ver corr client _ (by omega) (by omega) (by omega) (by omega) hcl).1 hok]
  have how := after_oneway (request len 1 ver corr client (fields ++ topics n name rest)) client (signed 16 1) (signed 16 ver) (signed 32 corr)
  have hat := after_attrs (request len 1 ver corr client (fields ++ topics n name rest)) client (signed 16 1) (signed 16 ver) (signed 32 corr)
  have hv1 : signed 16 ver = ver := signed_small (by simp; omega)
  have hk1 : signed 16 1 = 1 := by decide
  rw [hv1, hk1] at hat how ⊢
  have hdat : (afterHeader (request len 1 ver corr client (fields ++ topics n name rest)) client 1 ver (signed 32 corr)).data =
    head len 1 ver corr client ++ (fields ++ topics n name rest) := by rw [← request_head]; rfl
  have hoff : (afterHeader (request len 1 ver corr client (fields ++ topics n name rest)) client 1 ver (signed 32 corr)).offset =
    (head len 1 ver corr client).length := by rw [head_length]; rfl
  generalize afterHeader (request len 1 ver corr client (fields ++ topics n name rest)) client 1 ver (signed 32 corr) = m at *
  generalize head len 1 ver corr client = hd at *
  have ha : getInt m.attrs kApi = 1 := by simp only [getInt, hat.1]
  have hver : getInt m.attrs kVersion = ver := by simp only [getInt, hat.2.1]
  have hb : fetchRequest m = .ok (m.add kTopic (.str (Text.formatUtf8 name))) := by
    simp only [fetchRequest, hver]
    have hcomp : decide ((ver : Int) ≥ 12) = false := by simp; omega
    rw [hcomp]
    have := topicAt_topics m (hd ++ fields) name rest n h0 hn hname (by rw [hdat]; simp)
    rw [← this]
    congr 1
    simp only [fetchOffset, hoff, List.length_append, hf, fetchFields, ge_iff_le]
    have e3 : (3 : Int) ≤ ver ↔ 3 ≤ ver := by omega
    have e4 : (4 : Int) ≤ ver ↔ 4 ≤ ver := by omega
    have e7 : (7 : Int) ≤ ver ↔ 7 ≤ ver := by omega
    simp only [e3, e4, e7]
    split <;> split <;> split <;> omega
  simp only [body, ha, hb, ↓reduceIte]
  refine ⟨_, rfl, ?_, ?_⟩
  · simp only [Msg.add]; rw [AMap.get_set_self]
  · simp only [Msg.add]; rw [AMap.get_set_ne _ _ (by decide +kernel)]; exact how

/-! ## What the request parser gets wrong -/

/-- A request whose client id is null (length -1, as the wire format allows) is not recognised. -/
theorem null_client_refused (len key ver corr : Nat) (rest : Bytes) (h1 : len < 2 ^ 32) (h2 : key < 2 ^ 16) (h3 : ver < 2 ^ 16) (h4 : corr < 2 ^ 32) :
    ∃ m, parseRequest (be32 len ++ (be16 key ++ (be16 ver ++ (be32 corr ++ (255 :: 255 :: rest))))) = .ok (false, m) := by
  have e255 : (255 :: 255 :: rest : Bytes) = be16 65535 ++ rest := rfl
  rw [e255]
  have r0 := readInt32_be len h1 [] (be16 key ++ (be16 ver ++ (be32 corr ++ (be16 65535 ++ rest))))
  have r1 := readInt16_be key h2 (be32 len) (be16 ver ++ (be32 corr ++ (be16 65535 ++ rest)))
  have r2 := readInt16_be ver h3 (be32 len ++ be16 key) (be32 corr ++ (be16 65535 ++ rest))
  have r3 := readInt32_be corr h4 (be32 len ++ (be16 key ++ be16 ver)) (be16 65535 ++ rest)
  have r4 := readInt16_be 65535 (by omega) (be32 len ++ (be16 key ++ (be16 ver ++ be32 corr))) rest
  simp only [List.append_assoc, List.nil_append] at r0 r1 r2 r3 r4
  have hl : ¬ (be32 len ++ (be16 key ++ (be16 ver ++ (be32 corr ++ (be16 65535 ++ rest))))).length < 12 := by simp [be16, be32]
  generalize be32 len ++ (be16 key ++ (be16 ver ++ (be32 corr ++ (be16 65535 ++ rest)))) = d at *
  have r0' : readInt32 d 0 = .ok (signed 32 len, 4) := r0
  have r1' : readInt16 d 4 = .ok (signed 16 key, 6) := r1
  have r2' : readInt16 d 6 = .ok (signed 16 ver, 8) := r2
  have r3' : readInt32 d 8 = .ok (signed 32 corr, 12) := r3
  have r4' : readInt16 d 12 = .ok (-1, 14) := by rw [show (-1 : Int) = signed 16 65535 by decide]; exact r4
  have hh : requestHeader ⟨d, 0, []⟩ = .ok ((false, true), ⟨d, 0, []⟩) := by
    simp only [requestHeader, r0', r1', r2', r3', r4', orZero, Res.bind_ok]
    split
    · rfl
    · split
      · rfl
      · rw [if_pos (.inr (by omega))]; rfl
  refine ⟨⟨d, 0, []⟩, ?_⟩
  simp only [parseRequest, Tree.single, Tree.run, requestTree, requestFF, hl, decide_false, hh, Res.pure_eq, Res.bind_ok, Bool.false_eq_true, ↓reduceIte, Bool.not_false]
  rfl

theorem leb_small {v : Nat} (h : v < 128) : leb v = [UInt8.ofNat v] := by rw [leb, if_pos h]

theorem varint_small {v : Nat} (h : v < 128) (pre post : Bytes) : readUnsignedVarInt (pre ++ (UInt8.ofNat v :: post)) pre.length = .ok (v, pre.length + 1) := by
  have := (varint_roundtrip v (by omega) pre post).1
  rw [leb_small h, List.append_assoc] at this
  exact this

/-- Finding: the parser does not skip the tagged fields that end the header of the flexible versions.  Of a Produce
request of version 9 without transactional id and with one topic it reports the length byte of the name as topic. -/
theorem flexible_produce_misread (len corr : Nat) (client : Bytes) (a1 a2 t1 t2 t3 : UInt8) (t4 : Nat) (name rest : Bytes)
    (hl0 : 8 < len) (hl : len < 2 ^ 31) (hc : corr < 2 ^ 31) (hcl : client.length < 2 ^ 15)
    (h4 : 2 ≤ t4) (h4' : t4 < 128) (h0 : 2 ≤ name.length) (hname : name.length < 127) :
    ∃ m, parseRequest (request len 0 9 corr client (0 :: 0 :: a1 :: a2 :: t1 :: t2 :: t3 :: UInt8.ofNat t4 :: UInt8.ofNat 2 :: (encCompact name ++ rest))) = .ok (true, m) ∧
      AMap.get m.attrs kTopic = some (.str (Text.formatUtf8 [UInt8.ofNat (name.length + 1)])) := by
  have hok := header_ok (key := 0) (ver := 9) (corr := corr) (len := len) (hi := 9) hl0 hl hc (by omega) (by omega) (by decide) (by omega)
  have e2 : encCompact name = UInt8.ofNat (name.length + 1) :: name := by rw [encCompact, leb_small (by omega)]; rfl
  rw [e2]
  generalize hrq : (0 :: 0 :: a1 :: a2 :: t1 :: t2 :: t3 :: UInt8.ofNat t4 :: UInt8.ofNat 2 :: (UInt8.ofNat (name.length + 1) :: name ++ rest) : Bytes) = rq
  rw [(request_run len 0 9 corr client _ (by omega) (by omega) (by omega) (by omega) hcl).1 hok]
  have hat := after_attrs (request len 0 9 corr client rq) client (signed 16 0) (signed 16 9) (signed 32 corr)
  have hv1 : signed 16 9 = 9 := by decide
  have hk1 : signed 16 0 = 0 := by decide
  rw [hv1, hk1] at hat ⊢
  have hdat : (afterHeader (request len 0 9 corr client rq) client 0 9 (signed 32 corr)).data = head len 0 9 corr client ++ rq := by rw [← request_head]; rfl
  have hoff : (afterHeader (request len 0 9 corr client rq) client 0 9 (signed 32 corr)).offset = (head len 0 9 corr client).length := by rw [head_length]; rfl
  generalize afterHeader (request len 0 9 corr client rq) client 0 9 (signed 32 corr) = m at *
  generalize head len 0 9 corr client = hd at *
  have ha : getInt m.attrs kApi = 0 := by simp only [getInt, hat.1]
  have hver : getInt m.attrs kVersion = 9 := by simp only [getInt, hat.2.1]
  have v1 := varint_small (v := 0) (by omega) hd (0 :: a1 :: a2 :: t1 :: t2 :: t3 :: UInt8.ofNat t4 :: UInt8.ofNat 2 :: (UInt8.ofNat (name.length + 1) :: name ++ rest))
  have v2 := varint_small h4' (hd ++ [0, 0, a1, a2, t1, t2, t3]) (UInt8.ofNat 2 :: (UInt8.ofNat (name.length + 1) :: name ++ rest))
  have v3 := varint_small (v := 2) (by omega) (hd ++ [0, 0, a1, a2, t1, t2, t3, UInt8.ofNat t4]) (UInt8.ofNat (name.length + 1) :: name ++ rest)
  have ts := takeString_exact (hd ++ [0, 0, a1, a2, t1, t2, t3, UInt8.ofNat t4, UInt8.ofNat 2]) [UInt8.ofNat (name.length + 1)] (name ++ rest) false (by simp)
  simp only [List.append_assoc, List.cons_append, List.nil_append] at v1 v2 v3 ts hrq
  have e0 : (UInt8.ofNat 0 : UInt8) = 0 := rfl
  rw [e0] at v1
  rw [hrq, ← hdat] at v1 v2 v3 ts
  have hdl : m.data.length = hd.length + 10 + name.length + rest.length := by rw [hdat, ← hrq]; simp; omega
  have hb : produceRequest m = .ok (m.add kTopic (.str (Text.formatUtf8 [UInt8.ofNat (name.length + 1)]))) := by
    simp only [produceRequest, hver, hoff]
    rw [if_pos (by omega)]
    simp only [readNullableStringC, show decide ((9 : Int) ≥ 9) = true by decide, ↓reduceIte, readCompactNullableString, v1, Res.bind_ok]
    rw [if_neg (by omega), if_pos (by omega)]
    simp only [Res.pure_eq, Res.bind_ok, topicAt, readArraySize, ↓reduceIte, readCompactArraySize]
    rw [show ((hd.length : Int) + 1 + 6) = ((hd ++ [0, 0, a1, a2, t1, t2, t3]).length : Nat) by simp; omega, v2]
    simp only [Res.bind_ok]
    rw [@signed_small 32 t4 (by omega), if_neg (by omega), if_neg (by omega)]
    simp only [Res.pure_eq, Res.bind_ok]
    rw [if_pos (by omega)]
    simp only [readString, ↓reduceIte, readCompactString]
    rw [show (((hd ++ [0, 0, a1, a2, t1, t2, t3]).length : Nat) : Int) + 1 = ((hd ++ [0, 0, a1, a2, t1, t2, t3, UInt8.ofNat t4]).length : Nat) by simp; omega, v3]
    simp only [Res.bind_ok]
    rw [if_neg (by omega)]
    have hlong : decide ((((hd ++ [0, 0, a1, a2, t1, t2, t3, UInt8.ofNat t4]).length : Nat) : Int) + 1 + (2 : Nat) ≥ (m.data.length : Int)) = false := by
      simp [hdl]; omega
    rw [hlong, show (((hd ++ [0, 0, a1, a2, t1, t2, t3, UInt8.ofNat t4]).length : Nat) : Int) + 1 =
      ((hd ++ [0, 0, a1, a2, t1, t2, t3, UInt8.ofNat t4, UInt8.ofNat 2]).length : Nat) by simp; omega]
    have ts' : takeString m.data ((hd ++ [0, 0, a1, a2, t1, t2, t3, UInt8.ofNat t4, UInt8.ofNat 2]).length : Nat) (((2 : Nat) : Int) - 1) false = _ := ts
    rw [ts']
    rfl
  simp only [body, ha, hb]
  refine ⟨_, rfl, ?_⟩
  simp only [Msg.add]; rw [AMap.get_set_self]

/-- Finding: for the same reason no topic is reported of a Fetch request of version 12 whose session epoch is a multiple
of 256 (the first request of a session has epoch 0). -/
theorem flexible_fetch_misread (len corr : Nat) (client f24 rest : Bytes)
    (hl0 : 8 < len) (hl : len < 2 ^ 31) (hc : corr < 2 ^ 31) (hcl : client.length < 2 ^ 15) (hf : f24.length = 24) :
    ∃ m, parseRequest (request len 1 12 corr client (0 :: (f24 ++ 0 :: rest))) = .ok (true, m) ∧ AMap.get m.attrs kTopic = none := by
  have hok := header_ok (key := 1) (ver := 12) (corr := corr) (len := len) (hi := 12) hl0 hl hc (by omega) (by omega) (by decide) (by omega)
  generalize hrq : (0 :: (f24 ++ 0 :: rest) : Bytes) = rq
  rw [(request_run len 1 12 corr client _ (by omega) (by omega) (by omega) (by omega) hcl).1 hok]
  have hat := after_attrs (request len 1 12 corr client rq) client (signed 16 1) (signed 16 12) (signed 32 corr)
  have hnt : AMap.get (afterHeader (request len 1 12 corr client rq) client (signed 16 1) (signed 16 12) (signed 32 corr)).attrs kTopic = none := by
    obtain ⟨-, -, -, k4, k5, k6, -⟩ := keys_differ
    simp only [afterHeader, Msg.add]
    rw [AMap.get_set_ne _ _ k6, AMap.get_set_ne _ _ k5, AMap.get_set_ne _ _ k4]; rfl
  have hv1 : signed 16 12 = 12 := by decide
  have hk1 : signed 16 1 = 1 := by decide
  rw [hv1, hk1] at hat hnt ⊢
  have hdat : (afterHeader (request len 1 12 corr client rq) client 1 12 (signed 32 corr)).data = head len 1 12 corr client ++ rq := by rw [← request_head]; rfl
  have hoff : (afterHeader (request len 1 12 corr client rq) client 1 12 (signed 32 corr)).offset = (head len 1 12 corr client).length := by rw [head_length]; rfl
  generalize afterHeader (request len 1 12 corr client rq) client 1 12 (signed 32 corr) = m at *
  generalize head len 1 12 corr client = hd at *
  have ha : getInt m.attrs kApi = 1 := by simp only [getInt, hat.1]
  have hver : getInt m.attrs kVersion = 12 := by simp only [getInt, hat.2.1]
  have v1 := varint_small (v := 0) (by omega) (hd ++ 0 :: f24) rest
  rw [show hd ++ 0 :: f24 ++ UInt8.ofNat 0 :: rest = m.data by rw [hdat, ← hrq]; simp] at v1
  have hb : fetchRequest m = .ok m := by
    simp only [fetchRequest, hver, fetchOffset, hoff, topicAt, readArraySize, show decide ((12 : Int) ≥ 12) = true by decide, ↓reduceIte, readCompactArraySize]
    rw [if_pos (by omega), if_pos (by omega), if_pos (by omega)]
    rw [show (hd.length : Int) + 12 + 4 + 1 + 8 = ((hd ++ 0 :: f24).length : Nat) by simp; omega, v1]
    rfl
  simp only [body, ha, hb, ↓reduceIte]
  exact ⟨_, rfl, hnt⟩

/-! ## Responses -/

def response (len corr : Nat) (body : Bytes) : Bytes := be32 len ++ (be32 corr ++ body)

/-- The message after the header of a response. -/
def afterResponse (d : Bytes) (a : Attrs) : Msg := ⟨d, 8, a⟩

/-- C23: a response is refused unless the record carries its correlation id. -/
theorem response_run (len corr : Nat) (rest : Bytes) (a : Attrs) (h1 : len < 2 ^ 32) (h2 : corr < 2 ^ 32) :
    (4 < signed 32 len → AMap.get a kId = some (.int (signed 32 corr)) →
      parseResponse (response len corr rest) a = match body fetchResponse produceResponse (afterResponse (response len corr rest) a) with
        | .ok m' => .ok (true, m')
        | .err => .ok (false, afterResponse (response len corr rest) a)
        | .panic => .panic) ∧
    (signed 32 len ≤ 4 ∨ (∀ i, AMap.get a kId = some (.int i) → i ≠ signed 32 corr) ∧ (AMap.get a kId = none ∨ ∃ i, AMap.get a kId = some (.int i)) →
      parseResponse (response len corr rest) a = .ok (false, ⟨response len corr rest, 0, a⟩)) := by
  have r0 := readInt32_be len h1 [] (be32 corr ++ rest)
  have r1 := readInt32_be corr h2 (be32 len) rest
  simp only [List.append_assoc, List.nil_append] at r0 r1
  have hl : ¬ (be32 len ++ (be32 corr ++ rest)).length < 8 := by simp [be32]
  simp only [response]
  generalize be32 len ++ (be32 corr ++ rest) = d at *
  have r0' : readInt32 d 0 = .ok (signed 32 len, 4) := r0
  have r1' : readInt32 d 4 = .ok (signed 32 corr, 8) := r1
  have hff : responseFF ⟨d, 0, a⟩ = .ok false := by simp [responseFF, hl]
  constructor
  · intro h4 hid
    have hh : responseHeader ⟨d, 0, a⟩ = .ok ((true, false), afterResponse d a) := by
      have hno : ¬ ((!(Msg.mk d 0 a).has kId || decide (getInt a kId ≠ signed 32 corr)) = true) := by simp [Msg.has, getInt, hid]
      simp only [responseHeader, r0', r1', orZero, Res.bind_ok]
      rw [if_neg (by omega), if_neg hno]
      rfl
    rw [← children_run]
    simp only [parseResponse, Tree.single, Tree.run, responseTree, hff, hh, Res.bind_ok, Bool.false_eq_true, ↓reduceIte, Bool.not_true, List.isEmpty_cons]
  · intro h
    have hh : responseHeader ⟨d, 0, a⟩ = .ok ((false, true), ⟨d, 0, a⟩) := by
      simp only [responseHeader, r0', r1', orZero, Res.bind_ok]
      by_cases h4 : signed 32 len ≤ 4
      · rw [if_pos h4]; rfl
      · rw [if_neg h4]
        rcases h with h | ⟨h, h'⟩
        · omega
        · have hyes : (!(Msg.mk d 0 a).has kId || decide (getInt a kId ≠ signed 32 corr)) = true := by
            rcases h' with h' | ⟨i, hi⟩
            · simp [Msg.has, h']
            · simp only [getInt, hi]; simp [h i hi]
          rw [if_pos hyes]; rfl
    simp only [parseResponse, Tree.single, Tree.run, responseTree, hff, hh, Res.bind_ok, Bool.false_eq_true, ↓reduceIte, Bool.not_false, Res.pure_eq]
    rfl

/-- C23: responses to requests other than Produce and Fetch are accepted iff the correlation ids agree. -/
theorem kafka_response_matched (len key ver corr corr' len' : Nat) (client rest rest' : Bytes) (h1 : len < 2 ^ 32) (h2 : key < 2 ^ 16) (h3 : ver < 2 ^ 16) (h4 : corr < 2 ^ 32)
    (h5 : client.length < 2 ^ 15) (hk : 2 ≤ key) (m : Msg) (hm : parseRequest (request len key ver corr client rest) = .ok (true, m))
    (h6 : 4 < len') (h6' : len' < 2 ^ 31) (h7 : corr' < 2 ^ 32) :
    (∃ m', parseResponse (response len' corr' rest') m.attrs = .ok (true, m')) ↔ corr' = corr := by
  obtain ⟨-, g2, g3⟩ := kafka_header_iff_partial len key ver corr client rest h1 h2 h3 h4 h5
  rw [show bs "kafka_id" = kId from rfl, show bs "kafka_api" = kApi from rfl, show bs "kafka_version" = kVersion from rfl] at g3
  obtain ⟨a1, a2, a3⟩ := g3 m hm
  have hok := (g2 hk).1 ⟨m, hm⟩
  have hpos : (2 : Int) ≤ signed 16 key := by
    obtain ⟨-, ⟨lo, hi, hm, -⟩, -⟩ := hok
    have hall : ∀ e ∈ apis, 0 ≤ e.1 := by decide +kernel
    have h0 := hall _ hm
    simp only at h0
    simp only [signed] at h0 ⊢
    rw [Nat.mod_eq_of_lt (by omega)] at h0 ⊢
    split at h0
    · rename_i hh; rw [if_pos hh]; omega
    · exfalso; omega
  obtain ⟨r1, r2⟩ := response_run len' corr' rest' m.attrs (by omega) h7
  have hlen : signed 32 len' = len' := signed_small (by simpa using h6')
  constructor
  · rintro ⟨m', hm'⟩
    by_cases he : corr' = corr
    · exact he
    · exfalso
      have hne : signed 32 corr ≠ signed 32 corr' := by
        intro h
        simp only [signed] at h
        rw [Nat.mod_eq_of_lt h4, Nat.mod_eq_of_lt h7] at h
        split at h <;> split at h <;> omega
      rw [r2 (.inr ⟨fun i hi => by rw [a3] at hi; cases hi; exact hne, .inr ⟨_, a3⟩⟩)] at hm'
      cases hm'
  · rintro rfl
    rw [r1 (by omega) a3]
    have hb : getInt (afterResponse (response len' corr' rest') m.attrs).attrs kApi = signed 16 key := by
      simp only [getInt, afterResponse, a1]
    simp only [body, hb]
    rw [if_neg (by omega), if_neg (by omega), if_neg (by omega)]
    exact ⟨_, rfl⟩

/-- Topics of a response with the error code in the first partition. -/
def topicsWithCode (n : Nat) (name : Bytes) (parts : Nat) (index4 : Bytes) (code : Nat) (rest : Bytes) : Bytes :=
  be32 n ++ (encString name ++ (be32 parts ++ (index4 ++ (be16 code ++ rest))))

theorem responseTopic_parts (m : Msg) (pre name index4 rest : Bytes) (n parts code : Nat) (h0 : 0 < n) (h : n < 2 ^ 31) (hn : name.length < 2 ^ 15)
    (hp0 : 0 < parts) (hp : parts < 2 ^ 31) (hi : index4.length = 4) (hc : code < 2 ^ 16) (c0 : Int)
    (hd : m.data = pre ++ topicsWithCode n name parts index4 code rest) :
    responseTopic m pre.length false true c0 = .ok ((m.add kTopic (.str (Text.formatUtf8 name))).add kErrorCode (.int (signed 16 code))) := by
  have r1 := array_size n h pre (encString name ++ (be32 parts ++ (index4 ++ (be16 code ++ rest))))
  have r2 := string_roundtrip name (pre ++ be32 n) (be32 parts ++ (index4 ++ (be16 code ++ rest))) (by simpa using hn)
  have r3 := array_size parts hp (pre ++ (be32 n ++ encString name)) (index4 ++ (be16 code ++ rest))
  have r4 := readInt16_be code hc (pre ++ (be32 n ++ (encString name ++ (be32 parts ++ index4)))) rest
  simp only [List.append_assoc] at r2 r3 r4
  simp only [topicsWithCode] at hd
  rw [← hd] at r1 r2 r3 r4
  have e1 : (((pre ++ be32 n).length : Nat) : Int) + ((encString name).length : Nat) = ((pre ++ (be32 n ++ encString name)).length : Nat) := by simp; omega
  have e2 : (((pre ++ (be32 n ++ (encString name ++ be32 parts))).length : Nat) : Int) + 4 = ((pre ++ (be32 n ++ (encString name ++ (be32 parts ++ index4)))).length : Nat) := by
    simp only [List.length_append, hi]; omega
  simp only [responseTopic, r1, Res.bind_ok]
  rw [if_pos (by omega), r2]
  simp only [Res.bind_ok, ↓reduceIte, firstPartition, e1, r3]
  rw [if_pos (by omega), e2, r4]
  rfl

theorem responseTopic_plain (m : Msg) (pre name rest : Bytes) (n : Nat) (h0 : 0 < n) (h : n < 2 ^ 31) (hn : name.length < 2 ^ 15) (c0 : Int)
    (hd : m.data = pre ++ topics n name rest) :
    responseTopic m pre.length false false c0 = .ok ((m.add kTopic (.str (Text.formatUtf8 name))).add kErrorCode (.int c0)) := by
  have r1 := array_size n h pre (encString name ++ rest)
  have r2 := string_roundtrip name (pre ++ be32 n) rest (by simpa using hn)
  simp only [List.append_assoc] at r2
  simp only [topics] at hd
  rw [← hd] at r1 r2
  simp only [responseTopic, r1, Res.bind_ok]
  rw [if_pos (by omega), r2]
  rfl

/-- What a response body of this version holds: Produce 0-8 and Fetch 0-6 have the code in the first partition, Fetch
7-11 at the top. -/
inductive Body : Nat → Nat → Bytes → Bytes → Int → Prop
  | produce (ver n : Nat) (name : Bytes) (parts : Nat) (index4 : Bytes) (code : Nat) (rest : Bytes) (hv : ver ≤ 8) (h0 : 0 < n) (h : n < 2 ^ 31)
      (hn : name.length < 2 ^ 15) (hp0 : 0 < parts) (hp : parts < 2 ^ 31) (hi : index4.length = 4) (hc : code < 2 ^ 16) :
      Body 0 ver (topicsWithCode n name parts index4 code rest) name (signed 16 code)
  | fetchOld (ver n : Nat) (throttle name : Bytes) (parts : Nat) (index4 : Bytes) (code : Nat) (rest : Bytes) (hv : ver ≤ 6)
      (ht : throttle.length = if 1 ≤ ver then 4 else 0) (h0 : 0 < n) (h : n < 2 ^ 31)
      (hn : name.length < 2 ^ 15) (hp0 : 0 < parts) (hp : parts < 2 ^ 31) (hi : index4.length = 4) (hc : code < 2 ^ 16) :
      Body 1 ver (throttle ++ topicsWithCode n name parts index4 code rest) name (signed 16 code)
  | fetchNew (ver n : Nat) (throttle session name : Bytes) (code : Nat) (rest : Bytes) (hv : 7 ≤ ver) (hv' : ver ≤ 11)
      (ht : throttle.length = 4) (hs : session.length = 4) (h0 : 0 < n) (h : n < 2 ^ 31) (hn : name.length < 2 ^ 15) (hc : code < 2 ^ 16) :
      Body 1 ver (throttle ++ (be16 code ++ (session ++ topics n name rest))) name (signed 16 code)

/-- C67: topic and error code of a response are reported (versions before the flexible ones). -/
theorem kafka_response_parsed (len corr key ver : Nat) (a : Attrs) (b name : Bytes) (code : Int) (hb : Body key ver b name code)
    (h0 : 4 < len) (h1 : len < 2 ^ 31) (h2 : corr < 2 ^ 32) (hid : AMap.get a (bs "kafka_id") = some (.int (signed 32 corr)))
    (hkey : AMap.get a (bs "kafka_api") = some (.int key)) (hver : AMap.get a (bs "kafka_version") = some (.int ver)) :
    ∃ m, parseResponse (response len corr b) a = .ok (true, m) ∧ AMap.get m.attrs (bs "kafka_topic") = some (.str (Text.formatUtf8 name)) ∧
      AMap.get m.attrs (bs "kafka_error_code") = some (.int code) := by
  rw [show bs "kafka_api" = kApi from rfl, show bs "kafka_version" = kVersion from rfl, show bs "kafka_id" = kId from rfl, show bs "kafka_topic" = kTopic from rfl, show bs "kafka_error_code" = kErrorCode from rfl] at *
  have hlen : signed 32 len = len := signed_small (by simpa using h1)
  rw [(response_run len corr b a (by omega) h2).1 (by omega) hid]
  have hd : (afterResponse (response len corr b) a).data = (be32 len ++ be32 corr) ++ b := by simp [afterResponse, response]
  have h8 : (be32 len ++ be32 corr).length = 8 := rfl
  have ho : (afterResponse (response len corr b) a).offset = 8 := rfl
  have ha : (afterResponse (response len corr b) a).attrs = a := rfl
  generalize afterResponse (response len corr b) a = m at *
  generalize be32 len ++ be32 corr = pre at *
  have hk : getInt m.attrs kApi = key := by simp only [getInt, ha, hkey]
  have hv : getInt m.attrs kVersion = ver := by simp only [getInt, ha, hver]
  have key9 : kTopic ≠ kErrorCode := keys_differ.2.2.2.2.2.2.1
  suffices hs : body fetchResponse produceResponse m = .ok ((m.add kTopic (.str (Text.formatUtf8 name))).add kErrorCode (.int code)) by
    rw [hs]
    refine ⟨_, rfl, ?_, ?_⟩
    · simp only [Msg.add]; rw [AMap.get_set_ne _ _ (Ne.symm key9), AMap.get_set_self]
    · simp only [Msg.add]; rw [AMap.get_set_self]
  cases hb with
  | produce ver n name parts index4 c rest hvv h0 h hn hp0 hp hi hc =>
    have := responseTopic_parts m pre name index4 rest n parts c h0 h hn hp0 hp hi hc 0 hd
    simp only [body, hk]
    rw [if_neg (by omega), if_pos (by omega)]
    simp only [produceResponse, hv, ho]
    rw [show decide ((ver : Int) ≥ 9) = false by simp; omega, ← this, h8]
  | fetchOld ver n throttle name parts index4 c rest hvv ht h0 h hn hp0 hp hi hc =>
    have := responseTopic_parts m (pre ++ throttle) name index4 rest n parts c h0 h hn hp0 hp hi hc 0 (by rw [hd]; simp)
    simp only [body, hk]
    rw [if_pos (by omega)]
    simp only [fetchResponse, hv, ho]
    rw [show decide ((ver : Int) ≥ 12) = false by simp; omega, if_neg (by omega), ← this]
    congr 1
    rw [List.length_append, h8, ht]
    by_cases hz : 1 ≤ ver
    · rw [if_pos (by omega), if_pos hz]; rfl
    · rw [if_neg (by omega), if_neg hz]; rfl
  | fetchNew ver n throttle session name c rest hvv hv' ht hs h0 h hn hc =>
    have hr := readInt16_be c hc (pre ++ throttle) (session ++ topics n name rest)
    rw [show pre ++ throttle ++ be16 c ++ (session ++ topics n name rest) = m.data by rw [hd]; simp] at hr
    have := responseTopic_plain m (pre ++ throttle ++ be16 c ++ session) name rest n h0 h hn (signed 16 c) (by rw [hd]; simp)
    simp only [body, hk]
    rw [if_pos (by omega)]
    simp only [fetchResponse, hv, ho]
    rw [show decide ((ver : Int) ≥ 12) = false by simp; omega, if_pos (by omega), if_pos (by omega)]
    rw [show ((8 : Nat) : Int) + 4 = ((pre ++ throttle).length : Nat) by simp [h8, ht], hr]
    simp only [Res.bind_ok]
    rw [← this]
    congr 1
    simp [h8, ht, hs, be16]

/-! ## No panics -/

theorem topicAt_ok (m : Msg) (off : Int) (c : Bool) : topicAt m off c ≠ .panic := by
  simp only [topicAt]
  rcases (number_readers_safe m.data off c).2.2.2.2.1 with h | ⟨v, o, h, -⟩
  · simp [h]
  · simp only [h, Res.bind_ok]
    split
    · rcases (string_readers_safe m.data o 0 c).2.1 with h2 | ⟨t, o2, h2, -⟩ <;> simp [h2]
    · simp

theorem firstPartition_ok (d : Bytes) (off : Int) (c : Bool) (c0 : Int) : firstPartition d off c c0 ≠ .panic := by
  simp only [firstPartition]
  rcases (number_readers_safe d off c).2.2.2.2.1 with h | ⟨v, o, h, -⟩
  · simp [h]
  · simp only [h, Res.bind_ok]
    split
    · rcases (number_readers_safe d (o + 4) c).1 with h2 | ⟨t, o2, h2, -⟩ <;> simp [h2]
    · simp

theorem responseTopic_ok (m : Msg) (off : Int) (c p : Bool) (c0 : Int) : responseTopic m off c p c0 ≠ .panic := by
  simp only [responseTopic]
  rcases (number_readers_safe m.data off c).2.2.2.2.1 with h | ⟨v, o, h, -⟩
  · simp [h]
  · simp only [h, Res.bind_ok]
    split
    · rcases (string_readers_safe m.data o 0 c).2.1 with h2 | ⟨t, o2, h2, -⟩
      · simp [h2]
      · simp only [h2, Res.bind_ok]
        cases p with
        | false => simp
        | true =>
          have := firstPartition_ok m.data o2 c c0
          cases hf : firstPartition m.data o2 c c0 with
          | ok x => simp
          | err => simp
          | panic => exact absurd hf this
    · simp

theorem body_ok {f p : Msg → Res Msg} (hf : ∀ m, f m ≠ .panic) (hp : ∀ m, p m ≠ .panic) (m : Msg) : body f p m ≠ .panic := by
  simp only [body]
  split
  · exact hf m
  · split
    · exact hp m
    · split <;> simp

theorem tree_ok (ff : FastFail) (root : ParseFn) (f p : Msg → Res Msg) (hf : ∀ m, f m ≠ .panic) (hp : ∀ m, p m ≠ .panic) (m : Msg)
    (hff : ∃ b, ff m = .ok b) (hr : ∃ r, root m = .ok r) :
    ∃ r, Tree.single ⟨ff, root, [⟨fetchFF, fun m => attempt m (f m)⟩, ⟨produceFF, fun m => attempt m (p m)⟩, ⟨otherFF, otherParse⟩]⟩ m = .ok r := by
  obtain ⟨b, hb⟩ := hff
  obtain ⟨⟨⟨ok, co⟩, m'⟩, hr⟩ := hr
  simp only [Tree.single, Tree.run, hb, Res.bind_ok]
  cases b with
  | true => exact ⟨_, rfl⟩
  | false =>
    simp only [Bool.false_eq_true, ↓reduceIte, hr, Res.bind_ok, List.isEmpty_cons]
    cases ok with
    | false => exact ⟨_, rfl⟩
    | true =>
      cases co with
      | true => exact ⟨_, rfl⟩
      | false =>
        simp only [Bool.not_true, Bool.false_eq_true, ↓reduceIte]
        have := children_run f p m'
        have hb := body_ok hf hp m'
        cases hc : body f p m' with
        | ok x => rw [hc] at this; exact ⟨_, this⟩
        | err => rw [hc] at this; exact ⟨_, this⟩
        | panic => exact absurd hc hb

/-- C21, Kafka: no payload makes the parsers panic. -/
theorem kafka_never_panics (d : Bytes) (a : Attrs) : (∃ r, parseRequest d = .ok r) ∧ ∃ r, parseResponse d a = .ok r := by
  constructor
  · apply tree_ok
    · intro m; exact topicAt_ok m _ _
    · intro m
      simp only [produceRequest]
      split
      · rcases (string_readers_safe m.data m.offset 0 (decide (getInt m.attrs kVersion ≥ 9))).2.2 with h | ⟨o, h, -⟩ | ⟨v, o, h, -⟩
        · simp [h]
        · simp only [h, Res.bind_ok]; exact topicAt_ok m _ _
        · simp only [h, Res.bind_ok]; exact topicAt_ok m _ _
      · exact topicAt_ok m _ _
    · exact ⟨_, rfl⟩
    · obtain ⟨v1, h1⟩ := orZero_ok (number_readers_safe d 0 false).2.1
      obtain ⟨v2, h2⟩ := orZero_ok (number_readers_safe d 4 false).1
      obtain ⟨v3, h3⟩ := orZero_ok (number_readers_safe d 6 false).1
      obtain ⟨v4, h4⟩ := orZero_ok (number_readers_safe d 8 false).2.1
      obtain ⟨v5, h5⟩ := orZero_ok (number_readers_safe d 12 false).1
      simp only [requestHeader, h1, h2, h3, h4, h5, Res.bind_ok]
      split
      · exact ⟨_, rfl⟩
      · split
        · exact ⟨_, rfl⟩
        · split
          · exact ⟨_, rfl⟩
          · split <;> exact ⟨_, rfl⟩
  · apply tree_ok
    · intro m
      simp only [fetchResponse]
      split
      · rcases (number_readers_safe m.data ((m.offset : Int) + (if getInt m.attrs kVersion ≥ 1 then 4 else 0)) false).1 with h | ⟨v, o, h, -⟩
        · simp [h]
        · simp only [h, Res.bind_ok]; exact responseTopic_ok m _ _ _ _
      · exact responseTopic_ok m _ _ _ _
    · intro m; exact responseTopic_ok m _ _ _ _
    · exact ⟨_, rfl⟩
    · obtain ⟨v1, h1⟩ := orZero_ok (number_readers_safe d 0 false).2.1
      obtain ⟨v2, h2⟩ := orZero_ok (number_readers_safe d 4 false).2.1
      simp only [responseHeader, h1, h2, Res.bind_ok]
      split
      · exact ⟨_, rfl⟩
      · split <;> exact ⟨_, rfl⟩

/-! ## Samples -/

example : HeaderOk (signed 32 60) (signed 16 3) (signed 16 11) (signed 32 5) := header_ok (hi := 11) (by omega) (by omega) (by omega) (by omega) (by omega) (by decide) (by decide)
example : fetchFields 11 = 25 := by decide
example : Body 1 7 ([0, 0, 0, 0] ++ (be16 6 ++ ([0, 0, 0, 1] ++ topics 1 (bs "orders") []))) (bs "orders") 6 := by
  have := Body.fetchNew 7 1 [0, 0, 0, 0] [0, 0, 0, 1] (bs "orders") 6 [] (by omega) (by omega) rfl rfl (by omega) (by omega) (by decide +kernel) (by omega)
  exact this

theorem responseTopic_none (m : Msg) (pre rest : Bytes) (parts : Bool) (c0 : Int) (hd : m.data = pre ++ (be32 0 ++ rest)) :
    responseTopic m pre.length false parts c0 = .ok (m.add kErrorCode (.int c0)) := by
  have r1 := array_size 0 (by omega) pre rest
  rw [← hd] at r1
  simp only [responseTopic, r1, Res.bind_ok]
  rw [if_neg (by omega)]
  rfl

theorem responseTopic_noParts (m : Msg) (pre name rest : Bytes) (n : Nat) (h0 : 0 < n) (h : n < 2 ^ 31) (hn : name.length < 2 ^ 15) (c0 : Int)
    (hd : m.data = pre ++ (be32 n ++ (encString name ++ (be32 0 ++ rest)))) :
    responseTopic m pre.length false true c0 = .ok ((m.add kTopic (.str (Text.formatUtf8 name))).add kErrorCode (.int c0)) := by
  have r1 := array_size n h pre (encString name ++ (be32 0 ++ rest))
  have r2 := string_roundtrip name (pre ++ be32 n) (be32 0 ++ rest) (by simpa using hn)
  have r3 := array_size 0 (by omega) (pre ++ (be32 n ++ encString name)) rest
  simp only [List.append_assoc] at r2 r3
  rw [← hd] at r1 r2 r3
  have e1 : (((pre ++ be32 n).length : Nat) : Int) + ((encString name).length : Nat) = ((pre ++ (be32 n ++ encString name)).length : Nat) := by simp; omega
  simp only [responseTopic, r1, Res.bind_ok]
  rw [if_pos (by omega), r2]
  simp only [Res.bind_ok, ↓reduceIte, firstPartition, e1, r3]
  rw [if_neg (by omega)]
  rfl

/-- C67: a Produce response without topics is recognised: no topic, code 0; one whose first topic has no partitions has the
topic and the code 0. -/
theorem kafka_empty_response (len corr ver : Nat) (a : Attrs) (rest : Bytes) (hvv : ver ≤ 8)
    (h0 : 4 < len) (h1 : len < 2 ^ 31) (h2 : corr < 2 ^ 32) (hid : AMap.get a (bs "kafka_id") = some (.int (signed 32 corr)))
    (hkey : AMap.get a (bs "kafka_api") = some (.int 0)) (hver : AMap.get a (bs "kafka_version") = some (.int ver)) :
    (∃ m, parseResponse (response len corr (be32 0 ++ rest)) a = .ok (true, m) ∧
      AMap.get m.attrs (bs "kafka_topic") = AMap.get a (bs "kafka_topic") ∧ AMap.get m.attrs (bs "kafka_error_code") = some (.int 0)) ∧
    ∀ n name, 0 < n → n < 2 ^ 31 → name.length < 2 ^ 15 →
      ∃ m, parseResponse (response len corr (be32 n ++ (encString name ++ (be32 0 ++ rest)))) a = .ok (true, m) ∧
        AMap.get m.attrs (bs "kafka_topic") = some (.str (Text.formatUtf8 name)) ∧ AMap.get m.attrs (bs "kafka_error_code") = some (.int 0) := by
  rw [show bs "kafka_api" = kApi from rfl, show bs "kafka_version" = kVersion from rfl, show bs "kafka_id" = kId from rfl, show bs "kafka_topic" = kTopic from rfl, show bs "kafka_error_code" = kErrorCode from rfl] at *
  have hlen : signed 32 len = len := signed_small (by simpa using h1)
  have key9 : kTopic ≠ kErrorCode := keys_differ.2.2.2.2.2.2.1
  have go : ∀ b, (∀ m : Msg, m.data = (be32 len ++ be32 corr) ++ b → m.attrs = a → m.offset = 8 →
      body fetchResponse produceResponse m = responseTopic m (be32 len ++ be32 corr).length false true 0) := by
    intro b m hd ha ho
    have hk : getInt m.attrs kApi = 0 := by simp only [getInt, ha, hkey]
    have hv : getInt m.attrs kVersion = ver := by simp only [getInt, ha, hver]
    simp only [body]
    rw [if_neg (by omega), if_pos hk]
    simp only [produceResponse, hv, ho]
    rw [show decide ((ver : Int) ≥ 9) = false by simp; omega]
    rfl
  have hd : ∀ b, (afterResponse (response len corr b) a).data = (be32 len ++ be32 corr) ++ b := by intro b; simp [afterResponse, response]
  refine ⟨?_, fun n name n0 n1 hn => ?_⟩
  · rw [(response_run len corr _ a (by omega) h2).1 (by omega) hid]
    rw [go _ _ (hd _) rfl rfl, responseTopic_none _ _ rest _ _ (hd _)]
    refine ⟨_, rfl, ?_, ?_⟩
    · simp only [Msg.add]; rw [AMap.get_set_ne _ _ (Ne.symm key9)]; rfl
    · simp only [Msg.add]; rw [AMap.get_set_self]
  · rw [(response_run len corr _ a (by omega) h2).1 (by omega) hid]
    rw [go _ _ (hd _) rfl rfl, responseTopic_noParts _ _ name rest n n0 n1 hn _ (hd _)]
    refine ⟨_, rfl, ?_, ?_⟩
    · simp only [Msg.add]; rw [AMap.get_set_ne _ _ (Ne.symm key9), AMap.get_set_self]
    · simp only [Msg.add]; rw [AMap.get_set_self]

/-- Spec: the highest version by key from 0 on; `none` for the keys in between that are not recognised. -/
def highest : List (Option Nat) :=
  ([9, 12, 7, 11, 5, 3, 7, 3, 8, 8, 4, 7, 4, 4, 5, 5, 4, 1, 3, 7, 6, 2, 4, 4, 3, 3, 3, 1, 3, 2, 2, 2, 4, 2, 2, 2, 2, 3, 2, 2, 2, 2, 2, 2, 1, 0, 0, 0, 1, 1,
    0, 0] : List Nat).map some ++ [none, none, none, none, some 0, some 0, none, none, some 0, some 0]

/-- C67: the versions that count as supported are exactly those up to the highest of the kind. -/
theorem supported_versions (key ver : Nat) : Supported key ver ↔ ∃ hi, highest[key]? = some (some hi) ∧ ver ≤ hi := by
  have h1 : ∀ e ∈ apis, e.2.1 = 0 ∧ 0 ≤ e.1 ∧ highest[e.1.toNat]? = some (some e.2.2.toNat) ∧ 0 ≤ e.2.2 := by decide +kernel
  have h2 : ∀ k : Fin 62, ∀ hi, highest[k.1]? = some (some hi) → ((k.1 : Int), (0 : Int), (hi : Int)) ∈ apis := by
    have : ∀ k : Fin 62, highest[k.1]? = some none ∨ (∃ hi < 20, highest[k.1]? = some (some hi) ∧ ((k.1 : Int), (0 : Int), (hi : Int)) ∈ apis) := by decide +kernel
    intro k hi hh
    rcases this k with h | ⟨hi', _, h, h'⟩
    · rw [h] at hh; cases hh
    · rw [h] at hh; cases hh; exact h'
  have hl : highest.length = 62 := by decide +kernel
  constructor
  · rintro ⟨lo, hi, hm, h3, h4⟩
    obtain ⟨a1, a2, a3, a4⟩ := h1 _ hm
    simp only at a1 a2 a3 a4
    rw [Int.toNat_natCast] at a3
    exact ⟨hi.toNat, a3, by omega⟩
  · rintro ⟨hi, hh, hv⟩
    have hk : key < 62 := by
      have := (List.getElem?_eq_some_iff.1 hh).1
      omega
    exact ⟨0, hi, h2 ⟨key, hk⟩ hi hh, by omega, by omega⟩

end Kindling.Proto.Kafka
