import Verif.Flow.Refuse
import Verif.Net.Dispatch
import Verif.Net.Multi
import Verif.Net.Merge
/-
Which parser reports what is on the wire (C103): `parseProtocol` of network_analyzer.go:554-650 with the parsers of the
repository instead of arbitrary ones, and the list of parsers as `Start` builds it.

Simplified: the clustering of URLs and the JSON reader are parameters; the attributes of DNS messages are not kept.
-/
namespace Kindling.Flow.Choose
open Kindling Kindling.Agg Kindling.Proto Kindling.Net

/-- What the parsers take from outside: the clustering method, the setting for DNS code 3 and RocketMQ's tables. -/
structure Env where
  cluster : Bytes → Bytes
  ignore3 : Bool
  mq : Rocketmq.Env

/-- The parsers of factory.go:36-43. -/
inductive Name where
  | http | kafka | mysql | redis | dubbo | dns | rocketmq | generic
deriving DecidableEq, Repr

/-- The keys of factory.go:36-43 (protocol/protocol.go:3-12). -/
def Name.key : Name → String
  | .http => "http"
  | .kafka => "kafka"
  | .mysql => "mysql"
  | .redis => "redis"
  | .dubbo => "dubbo"
  | .dns => "dns"
  | .rocketmq => "rocketmq"
  | .generic => "NOSUPPORT"

/-- factory.go:55-57 `GetParser`; `none` is nil. -/
def getParser (key : String) : Option Name :=
  [Name.http, .kafka, .mysql, .redis, .dubbo, .dns, .rocketmq, .generic].find? (fun n => n.key = key)

/-- network_analyzer.go:135-139: which protocols are not to be recognised; the last entry for a key counts. -/
def disabled (configs : List (String × Bool)) (key : String) : Bool :=
  match (configs.filter (fun c => c.1 = key)).getLast? with
  | some c => c.2
  | none => false

/-- network_analyzer.go:141-152: the named parsers, in the order of the configuration. -/
def named (names : List String) (configs : List (String × Bool)) : List Name :=
  names.filterMap (fun n => match getParser n with
    | some p => if disabled configs n then none else some p
    | none => none)

/-- network_analyzer.go:154-155: the generic parser comes last. -/
def parsers (names : List String) (configs : List (String × Bool)) : List Name := named names configs ++ [.generic]

/-- The requests and responses of a message pair (`mps.requests`, `mps.responses`). -/
structure Exchange where
  req : Events
  resp : Option Events

/-- `getEvent(0), …, getEvent(size-1)`. -/
def eventsOf (s : Events) : List Evt := s.event :: (s.merged.events.drop 1)

/-- What `parseProtocol` returns: nil, an empty list, one record with these attributes, or several. -/
inductive Verdict where
  | nil
  | nothing
  | record (a : Attrs)
  | several (rs : List Multi.MRec)
deriving DecidableEq, Repr

/-- `GetBoolValue(constlabels.Oneway)`. -/
def oneway (a : Attrs) : Bool := AMap.get a (bs "one_way") = some (.bool true)

/-- network_analyzer.go:560-581: one request and its response. -/
def parseSingle (preq : Bytes → Res (Bool × Msg)) (presp : Bytes → Attrs → Res (Bool × Msg)) (x : Exchange) : Res Verdict := do
  let (ok, m) ← preq x.req.getData
  if !ok then pure .nil
  else match x.resp with
    | none => if oneway m.attrs then pure .nothing else pure (.record m.attrs)
    | some r => do
      let (ok', m') ← presp r.getData m.attrs
      if !ok' then pure .nil else pure (.record m'.attrs)

/-- dns_request.go:6-61 over TCP. -/
def dnsReq (e : Evt) : Option Multi.PMsg := (dnsRequest e.data).map (fun x => ⟨x.1, x.2⟩)

/-- dns_response.go:16-84 over TCP. -/
def dnsResp (env : Env) (e : Evt) : Option Multi.PMsg :=
  if Dns.fastfail e.data then none else match Dns.parseResponse env.ignore3 e.data 2 with
    | .ok a => some ⟨a.id, a.domain⟩
    | _ => none

/-- generic_parser.go:7-24. -/
def genericParse (d : Bytes) (a : Attrs) : Res (Bool × Msg) := .ok (true, ⟨d, 0, a⟩)

/-- network_analyzer.go:554-582 `parseProtocol`. -/
def parseProtocol (env : Env) (n : Name) (x : Exchange) : Res Verdict :=
  match n with
  | .dns => match Multi.parseMultipleRequests dnsReq (dnsResp env) (eventsOf x.req) (x.resp.map eventsOf) with
    | none => .ok .nil
    | some rs => .ok (.several rs)
  | .http => parseSingle (Http.parseRequest env.cluster) Http.parseResponse x
  | .kafka => parseSingle Kafka.parseRequest Kafka.parseResponse x
  | .mysql => parseSingle Mysql.parseRequest Mysql.parseResponse x
  | .redis => parseSingle redisRequest redisResponse x
  | .dubbo => parseSingle Dubbo.parseRequest Dubbo.parseResponse x
  | .rocketmq => parseSingle (Rocketmq.parseRequest env.mq) (Rocketmq.parseResponse env.mq) x
  | .generic => parseSingle (fun d => genericParse d []) genericParse x

/-- network_analyzer.go:539-551: the parsers in turn; `none`: all of them returned nil. -/
def choose (env : Env) (x : Exchange) : List Name → Res (Option (Name × Verdict))
  | [] => .ok none
  | n :: ns => match parseProtocol env n x with
    | .ok .nil => choose env x ns
    | .ok v => .ok (some (n, v))
    | .err => .err
    | .panic => .panic

/-! ## The list of parsers -/

/-- A protocol is not recognised iff the last entry of the configuration for it says so. -/
theorem disabled_iff (configs : List (String × Bool)) (key : String) :
    disabled configs key = true ↔ ∃ a b, configs = a ++ (key, true) :: b ∧ ∀ c ∈ b, c.1 ≠ key := by
  constructor
  · intro h
    unfold disabled at h
    cases hl : (configs.filter (fun c => c.1 = key)).getLast? with
    | none => rw [hl] at h; cases h
    | some c =>
      rw [hl] at h
      induction configs with
      | nil => cases hl
      | cons d r ih =>
        by_cases hr : r.filter (fun c => c.1 = key) = []
        · by_cases hd : d.1 = key
          · rw [List.filter_cons_of_pos (by simpa using hd), hr] at hl
            simp only [List.getLast?_singleton, Option.some.injEq] at hl
            subst hl
            refine ⟨[], r, ?_, ?_⟩
            · cases d; simp only at hd h; subst hd; rw [h]; rfl
            · intro c hc he
              have : c ∈ r.filter (fun c => c.1 = key) := List.mem_filter.2 ⟨hc, by simpa using he⟩
              rw [hr] at this; cases this
          · rw [List.filter_cons_of_neg (by simpa using hd), hr] at hl; cases hl
        · have : (r.filter (fun c => c.1 = key)).getLast? = some c := by
            by_cases hd : d.1 = key
            · rw [List.filter_cons_of_pos (by simpa using hd)] at hl
              obtain ⟨y, l, hyl⟩ := List.exists_cons_of_ne_nil hr
              rw [hyl] at hl ⊢
              simpa using hl
            · rwa [List.filter_cons_of_neg (by simpa using hd)] at hl
          obtain ⟨a, b, h1, h2⟩ := ih this
          exact ⟨d :: a, b, by rw [h1]; rfl, h2⟩
  · rintro ⟨a, b, rfl, h⟩
    have hb : b.filter (fun c => c.1 = key) = [] := by
      rw [List.filter_eq_nil_iff]
      intro c hc
      simpa using h c hc
    unfold disabled
    rw [List.filter_append, List.filter_cons_of_pos (by simp), hb]
    simp

/-- A parser is tried iff its name is configured and not disabled. -/
theorem mem_named (names : List String) (configs : List (String × Bool)) (n : Name) :
    n ∈ named names configs ↔ n.key ∈ names ∧ disabled configs n.key = false := by
  have hg : ∀ n : Name, getParser n.key = some n := by intro n; cases n <;> decide
  have hk : ∀ s p, getParser s = some p → p.key = s := by
    intro s p h
    have := List.find?_some h
    simpa using this
  simp only [named, List.mem_filterMap]
  constructor
  · rintro ⟨s, hs, h⟩
    split at h
    · rename_i p hp
      split at h
      · cases h
      · rename_i hd
        cases h
        rw [hk _ _ hp]
        exact ⟨hs, by simpa using hd⟩
    · cases h
  · rintro ⟨hs, hd⟩
    exact ⟨n.key, hs, by simp [hg, hd]⟩

/-! ## One parser takes it -/

/-- A parser that returns nil for the exchange. -/
def Refuses (env : Env) (x : Exchange) (n : Name) : Prop := parseProtocol env n x = .ok .nil

theorem choose_only {env : Env} {x : Exchange} {n : Name} {v : Verdict} (hn : parseProtocol env n x = .ok v) (hv : v ≠ .nil) (ps : List Name)
    (hm : n ∈ ps) (ho : ∀ p ∈ ps, p ≠ n → p ≠ .generic → Refuses env x p) (hg : n ≠ .generic) (rest : List Name) (hr : Name.generic ∉ ps) :
    choose env x (ps ++ rest) = .ok (some (n, v)) := by
  induction ps with
  | nil => cases hm
  | cons p ps ih =>
    rw [List.cons_append, choose]
    by_cases hp : p = n
    · subst hp
      rw [hn]
      cases v <;> first | rfl | exact absurd rfl hv
    · have := ho p (by simp) hp (fun e => hr (by simp [e]))
      rw [show parseProtocol env p x = .ok .nil from this]
      exact ih ((List.mem_cons.1 hm).resolve_left (Ne.symm hp)) (fun q hq => ho q (by simp [hq])) (fun h => hr (by simp [h]))

theorem refuses_single {preq : Bytes → Res (Bool × Msg)} {presp : Bytes → Attrs → Res (Bool × Msg)} {x : Exchange} (h : Refused (preq x.req.getData)) :
    parseSingle preq presp x = .ok .nil := by
  obtain ⟨m, h⟩ := h
  simp [parseSingle, h]

theorem refuses_dns {env : Env} {x : Exchange} (h : dnsRequest x.req.event.data = none) : Refuses env x .dns := by
  simp [Refuses, parseProtocol, Multi.parseMultipleRequests, eventsOf, mapOpt, dnsReq, h]

/-- A list of parsers of which the first ones refuse. -/
theorem choose_after {env : Env} {x : Exchange} {ps : List Name} (h : ∀ p ∈ ps, Refuses env x p) (rest : List Name) : choose env x (ps ++ rest) = choose env x rest := by
  induction ps with
  | nil => rfl
  | cons p ps ih =>
    rw [List.cons_append, choose, show parseProtocol env p x = .ok .nil from h p (by simp)]
    exact ih (fun q hq => h q (by simp [hq]))

/-- The generic parser takes everything and says nothing about it. -/
theorem generic_takes (env : Env) (x : Exchange) : parseProtocol env .generic x = .ok (.record []) := by
  cases h : x.resp <;> simp [parseProtocol, parseSingle, genericParse, h, oneway, AMap.get]

/-- No other named parser takes the exchange. -/
def Alone (env : Env) (x : Exchange) (n : Name) : Prop := n ≠ .generic ∧ ∀ p, p ≠ n → p ≠ .generic → Refuses env x p

/-- What is reported when only `n` can take the exchange, with verdict `v`. -/
def outcome (n : Name) (v : Verdict) : Name × Verdict := if v = .nil then (.generic, .record []) else (n, v)

/-- Spec: whatever parsers are configured besides `n`, in whatever order, the exchange is reported by `n`, or as unknown if it is not for `n`. -/
def Only (env : Env) (x : Exchange) (n : Name) : Prop :=
  ∀ names configs, n.key ∈ names → disabled configs n.key = false → "NOSUPPORT" ∉ names → ∀ v, parseProtocol env n x = .ok v →
    choose env x (parsers names configs) = .ok (some (outcome n v))

theorem only_of_alone {env : Env} {x : Exchange} {n : Name} (h : Alone env x n) : Only env x n := by
  intro names configs hk hd hg v hv
  have hm := (mem_named names configs n).2 ⟨hk, hd⟩
  have hng : Name.generic ∉ named names configs := fun hh => hg ((mem_named names configs .generic).1 hh).1
  by_cases h0 : v = .nil
  · subst h0
    rw [parsers, choose_after (fun p hp => ?_), outcome, if_pos rfl, choose, generic_takes]
    by_cases hpn : p = n
    · rw [hpn]; exact hv
    · exact h.2 p hpn (fun e => hng (e ▸ hp))
  · rw [outcome, if_neg h0]
    exact choose_only hv h0 _ hm (fun p _ h1 h2 => h.2 p h1 h2) h.1 _ hng

/-- The first segment is the start of the payload. -/
def Starts (x : Exchange) : Prop := x.req.event.data <+: x.req.getData

theorem starts_merge (n : Int) (e : Evt) (es : List Evt) (resp : Option Events) : Starts ⟨mergeAll n e es, resp⟩ := by
  simp only [Starts, getData_merged, mergeAll_event, mergeAll_data]
  exact List.prefix_append _ _

theorem byte_of {P d : Bytes} {q : UInt8 → Prop} (h : P <+: d) (hq : ∀ b ∈ P, q b) {i : Nat} (hi : i < P.length) : ∃ b, d[i]? = some b ∧ q b := by
  refine ⟨P[i], ?_, hq _ (List.getElem_mem hi)⟩
  rw [← get_prefix h hi, List.getElem?_eq_getElem hi]

/-! ## HTTP -/

theorem rfc_words : ∀ m ∈ Http.rfcMethods, 3 ≤ m.length ∧ (∀ b ∈ m, 65 ≤ b.toNat ∧ b.toNat ≤ 90) := by decide +kernel

/-- C103: a request line is taken by no parser other than HTTP's. -/
theorem http_alone (env : Env) (x : Exchange) (hs : Starts x) (method url rest : Bytes) (hm : method ∈ Http.rfcMethods) (hu : ∀ b ∈ url, 32 < b.toNat)
    (hd : x.req.getData = method ++ 32 :: (url ++ 32 :: (bs "HTTP/1." ++ rest))) (hl : x.req.getData.length ≤ 41000) : Alone env x .http := by
  refine ⟨by decide, ?_⟩
  obtain ⟨h3, hw⟩ := rfc_words method hm
  have hP : method ++ 32 :: (url ++ 32 :: bs "HTTP/1.") <+: x.req.getData := ⟨rest, by rw [hd]; simp⟩
  have h7 : (bs "HTTP/1.").length = 7 := by decide +kernel
  have hpl : 8 ≤ (method ++ 32 :: (url ++ 32 :: bs "HTTP/1.")).length := by simp [h7]; omega
  have hq : ∀ b ∈ method ++ 32 :: (url ++ 32 :: bs "HTTP/1."), 32 ≤ b.toNat := by
    intro b hb
    have hv : ∀ b ∈ bs "HTTP/1.", 32 ≤ b.toNat := by decide +kernel
    simp only [List.mem_append, List.mem_cons] at hb
    rcases hb with hb | rfl | hb | rfl | hb
    · have := hw b hb; omega
    · decide
    · have := hu b hb; omega
    · decide
    · exact hv b hb
  obtain ⟨b0, e0, q0⟩ := byte_of (q := fun b => 65 ≤ b.toNat ∧ b.toNat ≤ 90) (i := 0) ((List.prefix_append method _).trans hP) hw (by omega)
  obtain ⟨b4, e4, q4⟩ := byte_of hP hq (i := 4) (by omega)
  obtain ⟨b6, e6, q6⟩ := byte_of hP hq (i := 6) (by omega)
  obtain ⟨b7, e7, q7⟩ := byte_of hP hq (i := 7) (by omega)
  have hne : ∀ {b : UInt8} {k : Nat}, k < 256 → b.toNat ≠ k → b ≠ UInt8.ofNat k := by
    intro b k hk h e
    apply h
    rw [e]
    exact UInt8.toNat_ofNat_of_lt' (by simpa [UInt8.size] using hk)
  intro p h1 h2
  cases p with
  | http => exact absurd rfl h1
  | generic => exact absurd rfl h2
  | mysql => exact refuses_single (mysql_refuses e4 (hne (k := 1) (by omega) (by omega)) (hne (k := 3) (by omega) (by omega)) (hne (k := 22) (by omega) (by omega)))
  | redis => exact refuses_single (redis_refuses e0 (hne (k := 42) (by omega) (by omega)) (hne (k := 36) (by omega) (by omega)) (hne (k := 58) (by omega) (by omega)))
  | kafka => exact refuses_single (kafka_refuses_key e4 (hne (k := 0) (by omega) (by omega)))
  | dubbo => exact refuses_single (dubbo_refuses (.inl (by rw [e0]; intro e; injection e with e; exact hne (k := 0xda) (by omega) (by omega) e)))
  | rocketmq => exact refuses_single (rocketmq_refuses env.mq e4 (hne (k := 0) (by omega) (by omega)) (hne (k := 1) (by omega) (by omega)))
  | dns => exact refuses_dns (dns_refuses_count hs e6 e7 (by omega))

theorem byte_ne {b : UInt8} {k : Nat} (hk : k < 256) (h : b.toNat ≠ k) : b ≠ UInt8.ofNat k := by
  intro e
  apply h
  rw [e]
  exact UInt8.toNat_ofNat_of_lt' (by simpa [UInt8.size] using hk)

/-! ## MySQL -/

theorem lower_letter {b : UInt8} (h : 97 ≤ (Sql.lower b).toNat) : 65 ≤ b.toNat := by
  simp only [Sql.lower] at h
  split at h
  · rename_i hb; exact hb.1
  · omega

theorem statement_letters {sql : Bytes} (h : Mysql.Statement sql) : ∃ a b c r, sql = a :: b :: c :: r ∧ 65 ≤ a.toNat ∧ 65 ≤ b.toNat ∧ 65 ≤ c.toNat := by
  obtain ⟨p, hp, w, r, rfl, hw⟩ := h
  have hall : ∀ p ∈ ["select", "insert", "update", "delete", "drop", "create", "alter", "set", "commit"].map bs, 3 ≤ p.length ∧ ∀ b ∈ p, 97 ≤ b.toNat := by decide +kernel
  obtain ⟨h3, hb⟩ := hall p hp
  subst hw
  have hb' : ∀ b ∈ w, 65 ≤ b.toNat := fun b h => lower_letter (hb _ (List.mem_map_of_mem h))
  match w, h3, hb' with
  | a :: b :: c :: t, _, hb' => exact ⟨a, b, c, t ++ r, by simp, hb' a (by simp), hb' b (by simp), hb' c (by simp)⟩

/-- The words of HTTP and the blank behind have something at their third byte. -/
theorem words_third : ∀ w ∈ words, ∃ b, (w ++ [32])[2]? = some b ∧ b ≠ 0 := by decide +kernel

theorem http_refuses_third (cluster : Bytes → Bytes) {d : Bytes} (h : d[2]? = some 0) : Refused (Http.parseRequest cluster d) := by
  apply http_refuses
  intro w hw hp
  obtain ⟨b, hb, h0⟩ := words_third w hw
  rw [get_prefix hp (List.getElem?_eq_some_iff.1 hb).1, h] at hb
  injection hb with e
  exact h0 e.symm

/-- C103: a statement of at most 1600 bytes is taken by no parser other than MySQL's. -/
theorem mysql_alone (env : Env) (x : Exchange) (hs : Starts x) (l0 l1 c : UInt8) (hc : c = 22 ∨ c = 3) (pre sql : Bytes) (hpre : pre = [] ∨ (c = 3 ∧ pre = [0, 1]))
    (hq : Mysql.Statement sql) (hd : x.req.getData = [l0, l1, 0, 0] ++ c :: (pre ++ sql)) (hl : x.req.getData.length ≤ 1600) : Alone env x .mysql := by
  refine ⟨by decide, ?_⟩
  obtain ⟨s0, s1, s2, r, rfl, q0, q1, q2⟩ := statement_letters hq
  have e2 : x.req.getData[2]? = some 0 := by rw [hd]; rfl
  have e3 : x.req.getData[3]? = some 0 := by rw [hd]; rfl
  have e4 : x.req.getData[4]? = some c := by rw [hd]; rfl
  have h5 : 5 ≤ x.req.getData.length := by rw [hd]; simp
  have e67 : ∃ v w, x.req.getData[6]? = some v ∧ x.req.getData[7]? = some w ∧ 321 ≤ v.toNat * 256 + w.toNat := by
    rcases hpre with rfl | ⟨-, rfl⟩
    · exact ⟨s1, s2, by rw [hd]; rfl, by rw [hd]; rfl, by omega⟩
    · exact ⟨1, s0, by rw [hd]; rfl, by rw [hd]; rfl, by have : (1 : UInt8).toNat = 1 := rfl; omega⟩
  obtain ⟨v, w, e6, e7, hn⟩ := e67
  intro p h1 h2
  cases p with
  | mysql => exact absurd rfl h1
  | generic => exact absurd rfl h2
  | http => exact refuses_single (http_refuses_third env.cluster e2)
  | redis => exact refuses_single (redis_refuses_zero e3 h5)
  | kafka => exact refuses_single (kafka_refuses_key e4 (by rcases hc with rfl | rfl <;> decide))
  | dubbo => exact refuses_single (dubbo_refuses (.inr e2))
  | rocketmq => exact refuses_single (rocketmq_refuses env.mq e4 (by rcases hc with rfl | rfl <;> decide) (by rcases hc with rfl | rfl <;> decide))
  | dns => exact refuses_dns (dns_refuses_count hs e6 e7 (by omega))

/-! ## Redis -/

theorem digits_ascii (n : Nat) : ∀ b ∈ Dec.formatInt (n : Int), 48 ≤ b.toNat ∧ b.toNat ≤ 57 := by
  rw [Redis.formatInt_nat]; exact Dec.digits_all n

/-- C103: a command, an array of at least one string, is taken by no parser other than Redis'. -/
theorem redis_alone (env : Env) (x : Exchange) (hs : Starts x) (args : List Bytes) (hne : args ≠ []) (rest : Bytes)
    (hd : x.req.getData = Redis.encode (Redis.request args) ++ rest) (hl : x.req.getData.length ≤ 12800) : Alone env x .redis := by
  refine ⟨by decide, ?_⟩
  obtain ⟨a, as, rfl⟩ := List.exists_cons_of_ne_nil hne
  have hP : 42 :: (Dec.formatInt ((a :: as).length : Int) ++ [13, 10] ++ (36 :: Dec.formatInt (a.length : Int) ++ [13, 10])) <+: x.req.getData := by
    refine ⟨a ++ [13, 10] ++ (as.map (fun s => Redis.Frame.enc (.bulk s))).flatten ++ rest, ?_⟩
    rw [hd]
    simp [Redis.encode, Redis.request, Redis.Frame.enc, Redis.crlf, Function.comp_def]
  have hq : ∀ b ∈ 42 :: (Dec.formatInt ((a :: as).length : Int) ++ [13, 10] ++ (36 :: Dec.formatInt (a.length : Int) ++ [13, 10])), 10 ≤ b.toNat ∧ b.toNat ≠ 22 := by
    intro b hb
    simp only [List.mem_append, List.mem_cons, List.not_mem_nil, or_false] at hb
    rcases hb with rfl | (hb | rfl | rfl) | (rfl | hb) | rfl | rfl
    · decide
    · have := digits_ascii _ b hb; omega
    · decide
    · decide
    · decide
    · have := digits_ascii _ b hb; omega
    · decide
    · decide
  have hpos : ∀ n : Nat, 0 < (Dec.formatInt (n : Int)).length := by
    intro n; rw [Redis.formatInt_nat]; exact List.length_pos_iff.2 (Dec.digits_ne_nil n)
  have hpl : 8 ≤ (42 :: (Dec.formatInt ((a :: as).length : Int) ++ [13, 10] ++ (36 :: Dec.formatInt (a.length : Int) ++ [13, 10]))).length := by
    have h1 := hpos (a :: as).length
    have h2 := hpos a.length
    simp only [List.length_cons, List.length_append, List.length_nil] at *
    omega
  have e0 : x.req.getData[0]? = some 42 := by rw [← get_prefix hP (by omega)]; rfl
  obtain ⟨b4, e4, q4⟩ := byte_of hP hq (i := 4) (by omega)
  obtain ⟨b6, e6, q6⟩ := byte_of hP hq (i := 6) (by omega)
  obtain ⟨b7, e7, q7⟩ := byte_of hP hq (i := 7) (by omega)
  intro p h1 h2
  cases p with
  | redis => exact absurd rfl h1
  | generic => exact absurd rfl h2
  | mysql => exact refuses_single (mysql_refuses e4 (byte_ne (k := 1) (by omega) (by omega)) (byte_ne (k := 3) (by omega) (by omega)) (byte_ne (k := 22) (by omega) (by omega)))
  | http => exact refuses_single (http_refuses_first env.cluster e0 (by decide))
  | kafka => exact refuses_single (kafka_refuses_key e4 (byte_ne (k := 0) (by omega) (by omega)))
  | dubbo => exact refuses_single (dubbo_refuses (.inl (by rw [e0]; decide)))
  | rocketmq => exact refuses_single (rocketmq_refuses env.mq e4 (byte_ne (k := 0) (by omega) (by omega)) (byte_ne (k := 1) (by omega) (by omega)))
  | dns => exact refuses_dns (dns_refuses_count hs e6 e7 (by omega))

/-! ## Kafka -/

/-- C103: a request whose version is 0 or whose client id starts with a letter or an underscore, of fewer than 2^24 bytes and with a
correlation id below 2^24, is taken by no parser other than Kafka's. -/
theorem kafka_alone (env : Env) (hj : JsonText env.mq) (x : Exchange) (hs : Starts x) (len key ver corr : Nat) (client rest : Bytes) (hlen : len < 2 ^ 24) (hk : key < 256) (hv : ver < 256)
    (hcorr : corr < 2 ^ 24) (hc : ver = 0 ∨ ∃ b r, client = b :: r ∧ 64 ≤ b.toNat ∧ b.toNat < 192)
    (hd : x.req.getData = Kafka.request len key ver corr client rest) : Alone env x .kafka := by
  refine ⟨by decide, ?_⟩
  have z0 : len / 16777216 = 0 := by omega
  have z1 : corr / 16777216 = 0 := by omega
  have z2 : key / 256 = 0 := by omega
  have z3 : ver / 256 = 0 := by omega
  have e0 : x.req.getData[0]? = some 0 := by rw [hd]; simp [Kafka.request, be32, z0]
  have e4 : x.req.getData[4]? = some 0 := by rw [hd]; simp [Kafka.request, be32, be16, z2]
  have e6 : x.req.getData[6]? = some 0 := by rw [hd]; simp [Kafka.request, be32, be16, z3]
  have e7 : x.req.getData[7]? = some (UInt8.ofNat (ver % 256)) := by rw [hd]; simp [Kafka.request, be32, be16]
  have e8 : x.req.getData[8]? = some 0 := by rw [hd]; simp [Kafka.request, be32, be16, z1]
  intro p h1 h2
  cases p with
  | kafka => exact absurd rfl h1
  | generic => exact absurd rfl h2
  | mysql => exact refuses_single (mysql_refuses e4 (by decide) (by decide) (by decide))
  | http => exact refuses_single (http_refuses_first env.cluster e0 (by decide))
  | redis => exact refuses_single (redis_refuses e0 (by decide) (by decide) (by decide))
  | dubbo => exact refuses_single (dubbo_refuses (.inl (by rw [e0]; decide)))
  | rocketmq => exact refuses_single (rocketmq_refuses_zero env.mq hj e4 e8)
  | dns =>
    apply refuses_dns
    rcases hc with rfl | ⟨b, r, rfl, q1, q2⟩
    · exact dns_refuses_count hs e6 e7 (by intro h; exact absurd rfl h)
    · refine dns_refuses_start hs (b := b) ?_ q1 q2
      rw [hd]; simp [Kafka.request, be32, be16, encString]

/-! ## Dubbo -/

/-- C103: a request with an identification below 2^32 is taken by no parser other than Dubbo's. -/
theorem dubbo_alone (env : Env) (hj : JsonText env.mq) (x : Exchange) (hs : Starts x) (flags status : UInt8) (hrest body : Bytes)
    (hd : x.req.getData = Dubbo.header flags status (0 :: 0 :: 0 :: 0 :: hrest) ++ body) : Alone env x .dubbo := by
  refine ⟨by decide, ?_⟩
  have e0 : x.req.getData[0]? = some 0xda := by rw [hd]; rfl
  have e4 : x.req.getData[4]? = some 0 := by rw [hd]; rfl
  have e5 : x.req.getData[5]? = some 0 := by rw [hd]; rfl
  have e6 : x.req.getData[6]? = some 0 := by rw [hd]; rfl
  have e7 : x.req.getData[7]? = some 0 := by rw [hd]; rfl
  intro p h1 h2
  cases p with
  | dubbo => exact absurd rfl h1
  | generic => exact absurd rfl h2
  | mysql => exact refuses_single (mysql_refuses e4 (by decide) (by decide) (by decide))
  | http => exact refuses_single (http_refuses_first env.cluster e0 (by decide))
  | redis => exact refuses_single (redis_refuses e0 (by decide) (by decide) (by decide))
  | kafka => exact refuses_single (kafka_refuses_length e0 (by decide))
  | rocketmq => exact refuses_single (rocketmq_refuses_empty env.mq hj e4 e5 e6 e7)
  | dns => exact refuses_dns (dns_refuses_count hs e6 e7 (by intro h; exact absurd rfl h))

/-! ## RocketMQ -/

/-- C103: a request with a JSON header of 13 to 65535 bytes and a body of at most four times its length is taken by no parser other than RocketMQ's. -/
theorem rocketmq_alone (env : Env) (x : Exchange) (hs : Starts x) (len : Nat) (hb body : Bytes) (hlen : len < 2 ^ 24) (h13 : 13 ≤ hb.length) (h16 : hb.length < 65536)
    (hbody : body.length ≤ 4 * hb.length) (hd : x.req.getData = be32 len ++ be32 hb.length ++ hb ++ body) : Alone env x .rocketmq := by
  refine ⟨by decide, ?_⟩
  have z0 : len / 16777216 = 0 := by omega
  have z1 : hb.length / 16777216 = 0 := by omega
  have z2 : hb.length / 65536 = 0 := by omega
  have e0 : x.req.getData[0]? = some 0 := by rw [hd]; simp [be32, z0]
  have e4 : x.req.getData[4]? = some 0 := by rw [hd]; simp [be32, z1]
  have e5 : x.req.getData[5]? = some 0 := by rw [hd]; simp [be32, z2]
  have e6 : x.req.getData[6]? = some (UInt8.ofNat (hb.length / 256 % 256)) := by rw [hd]; simp [be32]
  have e7 : x.req.getData[7]? = some (UInt8.ofNat (hb.length % 256)) := by rw [hd]; simp [be32]
  have hdl : x.req.getData.length = 8 + hb.length + body.length := by rw [hd]; simp [be32]; omega
  have hn : (UInt8.ofNat (hb.length / 256 % 256)).toNat * 256 + (UInt8.ofNat (hb.length % 256)).toNat = hb.length := by
    simp only [UInt8.toNat_ofNat']
    omega
  intro p h1 h2
  cases p with
  | rocketmq => exact absurd rfl h1
  | generic => exact absurd rfl h2
  | mysql => exact refuses_single (mysql_refuses e4 (by decide) (by decide) (by decide))
  | http => exact refuses_single (http_refuses_first env.cluster e0 (by decide))
  | redis => exact refuses_single (redis_refuses e0 (by decide) (by decide) (by decide))
  | kafka =>
    refine refuses_single (kafka_refuses e4 e5 e6 e7 ?_)
    intro hsup
    have := supported_key hsup
    rw [hn] at this
    simp only [signed] at this
    split at this <;> omega
  | dubbo => exact refuses_single (dubbo_refuses (.inl (by rw [e0]; decide)))
  | dns => exact refuses_dns (dns_refuses_count hs e6 e7 (by omega))

/-! ## What is reported of requests without a response -/

theorem single_unanswered {preq : Bytes → Res (Bool × Msg)} {presp : Bytes → Attrs → Res (Bool × Msg)} {x : Exchange} {m : Msg} (hr : x.resp = none)
    (h : preq x.req.getData = .ok (true, m)) (ho : AMap.get m.attrs (bs "one_way") = none) : parseSingle preq presp x = .ok (.record m.attrs) := by
  simp [parseSingle, h, hr, oneway, ho]

theorem only_record {env : Env} {x : Exchange} {n : Name} {a : Attrs} (h : Alone env x n) (hv : parseProtocol env n x = .ok (.record a)) (names : List String) (configs : List (String × Bool))
    (hk : n.key ∈ names) (hd : disabled configs n.key = false) (hg : "NOSUPPORT" ∉ names) : choose env x (parsers names configs) = .ok (some (n, .record a)) := by
  rw [only_of_alone h names configs hk hd hg _ hv]; rfl

/-- C103: an HTTP request is reported as such, with its method, URL and content key, whatever other parsers are configured and whatever their order. -/
theorem http_reported (env : Env) (x : Exchange) (hs : Starts x) (hr : x.resp = none) (method url rest : Bytes) (hm : method ∈ Http.rfcMethods) (hu : ∀ b ∈ url, 32 < b.toNat)
    (hd : x.req.getData = method ++ 32 :: (url ++ 32 :: (bs "HTTP/1." ++ rest))) (h14 : 14 ≤ x.req.getData.length) (hl : x.req.getData.length ≤ 41000)
    (names : List String) (configs : List (String × Bool)) (hk : "http" ∈ names) (hc : disabled configs "http" = false) (hg : "NOSUPPORT" ∉ names) :
    ∃ a, choose env x (parsers names configs) = .ok (some (.http, .record a)) ∧
      AMap.get a (bs "http_method") = some (.str method) ∧ AMap.get a (bs "http_url") = some (.str (Text.formatUtf8 url)) ∧
      AMap.get a (bs "content_key") = some (.str (Text.formatUtf8 (if env.cluster url = [] then [42] else env.cluster url))) := by
  have h32 : (32 : UInt8) ∉ url := fun h => absurd (hu 32 h) (by decide)
  rw [hd] at h14
  obtain ⟨m, e, g1, g2, g3, -, ho⟩ := Http.http_request_parsed env.cluster method url (bs "HTTP/1." ++ rest) hm h32 h14
  rw [← hd] at e
  exact ⟨m.attrs, only_record (http_alone env x hs method url rest hm hu hd hl) (single_unanswered hr e ho) names configs hk hc hg, g1, g2, g3⟩

/-- C103: a MySQL statement is reported as such. -/
theorem mysql_reported (env : Env) (x : Exchange) (hs : Starts x) (hr : x.resp = none) (l0 l1 c : UInt8) (hc : c = 22 ∨ c = 3) (pre sql : Bytes) (hpre : pre = [] ∨ (c = 3 ∧ pre = [0, 1]))
    (hq : Mysql.Statement sql) (hd : x.req.getData = [l0, l1, 0, 0] ++ c :: (pre ++ sql)) (hl : x.req.getData.length ≤ 1600)
    (names : List String) (configs : List (String × Bool)) (hk : "mysql" ∈ names) (hcf : disabled configs "mysql" = false) (hg : "NOSUPPORT" ∉ names) :
    ∃ a, choose env x (parsers names configs) = .ok (some (.mysql, .record a)) ∧ AMap.get a (bs "sql") = some (.str (Text.formatUtf8 sql)) ∧
      AMap.get a (bs "content_key") = some (.str (Text.formatUtf8 (Sql.parseStatement sql))) := by
  obtain ⟨m, e, g1, g2, -, ho⟩ := Mysql.mysql_statement_parsed [l0, l1, 0, 0] rfl c hc pre sql hpre hq
  rw [← hd] at e
  exact ⟨m.attrs, only_record (mysql_alone env x hs l0 l1 c hc pre sql hpre hq hd hl) (single_unanswered hr e ho) names configs hk hcf hg, g1, g2⟩

/-- C103: a Redis command is reported as such. -/
theorem redis_reported (env : Env) (x : Exchange) (hs : Starts x) (hr : x.resp = none) (args : List Bytes) (hne : args ≠ []) (h64 : Redis.Int64 args.length)
    (hcl : ∀ b ∈ args, Redis.Int64 b.length ∧ (13 : UInt8) ∉ b)
    (hd : x.req.getData = Redis.encode (Redis.request args)) (hl : x.req.getData.length ≤ 12800)
    (names : List String) (configs : List (String × Bool)) (hk : "redis" ∈ names) (hcf : disabled configs "redis" = false) (hg : "NOSUPPORT" ∉ names) :
    ∃ a, choose env x (parsers names configs) = .ok (some (.redis, .record a)) ∧ AMap.get a (bs "redis_command") = (Redis.lastCommand (Redis.request args)).map .str := by
  obtain ⟨m, e, -, g1, -, -, ho⟩ := Redis.redis_request_parsed_partial (Redis.request args) (by simp [Redis.request])
    (by intro f hf
        simp only [Redis.request, List.mem_cons, List.mem_map] at hf
        rcases hf with rfl | ⟨b, hb, rfl⟩
        · exact h64
        · exact hcl b hb)
    (by intro f hf
        simp only [Redis.request, List.mem_cons, List.mem_map] at hf
        rcases hf with rfl | ⟨b, hb, rfl⟩ <;> trivial)
  rw [← hd] at e
  have e' : redisRequest x.req.getData = .ok (true, m) := by simp [redisRequest, e]
  exact ⟨m.attrs, only_record (redis_alone env x hs args hne [] (by rw [hd]; simp) hl) (single_unanswered hr e' ho) names configs hk hcf hg, g1⟩

/-- C103: a Fetch or Produce request is reported as Kafka's with its topic. -/
theorem kafka_reported (env : Env) (hj : JsonText env.mq) (x : Exchange) (hs : Starts x) (hr : x.resp = none) (len ver corr : Nat) (client : Bytes)
    (n : Nat) (name rest : Bytes) (hl0 : 8 < len) (hl : len < 2 ^ 24) (hcorr : corr < 2 ^ 24) (hcl : client.length < 2 ^ 15)
    (hc : ver = 0 ∨ ∃ b r, client = b :: r ∧ 64 ≤ b.toNat ∧ b.toNat < 192) (h0 : 0 < n) (hn : n < 2 ^ 31) (hname : name.length < 2 ^ 15)
    (hd : (ver ≤ 11 ∧ ∃ fields, fields.length = Kafka.fetchFields ver ∧ x.req.getData = Kafka.request len 1 ver corr client (fields ++ Kafka.topics n name rest)) ∨
      (ver ≤ 8 ∧ ∃ tid at6, (∀ s, tid = some s → s.length < 2 ^ 15) ∧ at6.length = 6 ∧
        x.req.getData = Kafka.request len 0 ver corr client (Kafka.produceBody ver tid at6 (Kafka.topics n name rest))))
    (names : List String) (configs : List (String × Bool)) (hk : "kafka" ∈ names) (hcf : disabled configs "kafka" = false) (hg : "NOSUPPORT" ∉ names) :
    ∃ a, choose env x (parsers names configs) = .ok (some (.kafka, .record a)) ∧ AMap.get a (bs "kafka_topic") = some (.str (Text.formatUtf8 name)) := by
  rcases hd with ⟨hv, fields, hf, hd⟩ | ⟨hv, tid, at6, ht, h6, hd⟩
  · obtain ⟨m, e, g1, ho⟩ := Kafka.kafka_fetch_topic_partial len ver corr client fields n name rest hl0 (by omega) hv (by omega) hcl hf h0 hn hname
    rw [← hd] at e
    exact ⟨m.attrs, only_record (kafka_alone env hj x hs len 1 ver corr client _ hl (by omega) (by omega) hcorr hc hd) (single_unanswered hr e ho) names configs hk hcf hg, g1⟩
  · obtain ⟨m, e, g1, ho⟩ := Kafka.kafka_produce_topic_partial len ver corr client tid at6 n name rest hl0 (by omega) hv (by omega) hcl ht h6 h0 hn hname
    rw [← hd] at e
    exact ⟨m.attrs, only_record (kafka_alone env hj x hs len 0 ver corr client _ hl (by omega) (by omega) hcorr hc hd) (single_unanswered hr e ho) names configs hk hcf hg, g1⟩

/-- C103: a two-way Dubbo request is reported as such with its service and method. -/
theorem dubbo_reported (env : Env) (hj : JsonText env.mq) (x : Exchange) (hs : Starts x) (hr : x.resp = none) (flags status : UInt8) (hrest v service sv method rest : Bytes)
    (h8 : hrest.length = 8) (hreq : flags &&& 0x80 ≠ 0) (htwo : flags &&& 0x40 ≠ 0) (hev : flags &&& 0x20 = 0) (enc : Bytes → Bytes)
    (henc : (flags &&& 0x1f = 2 ∧ enc = Dubbo.hessian ∧ ∀ s ∈ [v, service, sv, method], s.length < 1024) ∨
      (flags &&& 0x1f = 6 ∧ enc = Dubbo.json ∧ ∀ s ∈ [v, service, sv, method], (10 : UInt8) ∉ s))
    (hd : x.req.getData = Dubbo.header flags status (0 :: 0 :: 0 :: 0 :: hrest) ++ (enc v ++ (enc service ++ (enc sv ++ (enc method ++ rest)))))
    (names : List String) (configs : List (String × Bool)) (hk : "dubbo" ∈ names) (hcf : disabled configs "dubbo" = false) (hg : "NOSUPPORT" ∉ names) :
    ∃ a, choose env x (parsers names configs) = .ok (some (.dubbo, .record a)) ∧ AMap.get a (bs "content_key") = some (.str (service ++ 35 :: method)) := by
  obtain ⟨m, e, g1, -, ho⟩ := Dubbo.dubbo_request_parsed flags status (0 :: 0 :: 0 :: 0 :: hrest) v service sv method rest (by simp [h8]) hreq htwo hev enc henc
  rw [← hd] at e
  exact ⟨m.attrs, only_record (dubbo_alone env hj x hs flags status hrest _ hd) (single_unanswered hr e ho) names configs hk hcf hg, g1⟩

/-- C103: a RocketMQ request with a JSON header is reported as such with its operation. -/
theorem rocketmq_reported (env : Env) (x : Exchange) (hs : Starts x) (hr : x.resp = none) (len : Nat) (hb body : Bytes) (h : Rocketmq.Header) (hp : env.mq.json hb = some h)
    (hlen : len < 2 ^ 24) (h13 : 13 ≤ hb.length) (h16 : hb.length < 65536) (hbody : body.length ≤ 4 * hb.length) (hd : x.req.getData = be32 len ++ be32 hb.length ++ hb ++ body)
    (h29 : 29 ≤ x.req.getData.length)
    (names : List String) (configs : List (String × Bool)) (hk : "rocketmq" ∈ names) (hcf : disabled configs "rocketmq" = false) (hg : "NOSUPPORT" ∉ names) :
    ∃ a, choose env x (parsers names configs) = .ok (some (.rocketmq, .record a)) ∧
      AMap.get a (bs "rocketmq_request_msg") = some (.str (env.mq.requestMsg h.code)) ∧ AMap.get a (bs "rocketmq_opaque") = some (.int h.oid) := by
  rw [hd] at h29
  obtain ⟨m, e, g1, g2, -, -, -, ho⟩ := Rocketmq.rocketmq_request_parsed_partial env.mq (.json (be32 len) hb body h rfl (by omega) hp h29)
  rw [← hd] at e
  exact ⟨m.attrs, only_record (rocketmq_alone env x hs len hb body hlen h13 h16 hbody hd) (single_unanswered hr e ho) names configs hk hcf hg, g2, g1⟩

/-! ## `COM_QUIT` swallows what is not MySQL's -/

theorem split5 {d : Bytes} {c : UInt8} (h : d[4]? = some c) : ∃ p r, p.length = 4 ∧ d = p ++ c :: r := by
  match d, h with
  | a :: b :: e :: f :: c' :: r, h => exact ⟨[a, b, e, f], r, rfl, by simp at h; rw [h]; rfl⟩

/-- C103 fails of the code: a request without a response whose fifth byte is 1 is taken by MySQL's parser for the end of a session, and
nothing is reported; no parser behind MySQL's sees it. -/
theorem quit_swallows (env : Env) (x : Exchange) (hr : x.resp = none) (h : x.req.getData[4]? = some 1) (before after : List Name) (hb : ∀ p ∈ before, Refuses env x p) :
    choose env x (before ++ .mysql :: after) = .ok (some (.mysql, .nothing)) := by
  obtain ⟨p, r, hp, hd⟩ := split5 h
  have e := Mysql.mysql_quit p hp r
  rw [← hd] at e
  have hq : parseProtocol env .mysql x = .ok .nothing := by
    simp only [parseProtocol, parseSingle, e, Res.bind_ok, hr, Bool.not_true, Bool.false_eq_true, ↓reduceIte]
    rfl
  rw [choose_after hb, choose, hq]

/-- So every RocketMQ request in the binary form that is not answered is lost if MySQL's parser comes first. -/
theorem rocketmq_binary_lost (env : Env) (x : Exchange) (hr : x.resp = none) (len : Nat) (hlen : len < 2 ^ 24) (hlen3 lv flag4 rest : Bytes) (code oid remark ext : Nat)
    (hd : x.req.getData = Rocketmq.binary (be32 len) hlen3 code lv oid flag4 remark ext rest) (before after : List Name)
    (hb : ∀ p ∈ before, p ∈ [Name.http, .redis, .kafka, .dubbo]) : choose env x (before ++ .mysql :: after) = .ok (some (.mysql, .nothing)) := by
  have z0 : len / 16777216 = 0 := by omega
  have e0 : x.req.getData[0]? = some 0 := by rw [hd]; simp [Rocketmq.binary, be32, z0]
  have e4 : x.req.getData[4]? = some 1 := by rw [hd]; simp [Rocketmq.binary, be32]
  refine quit_swallows env x hr e4 before after (fun p hp => ?_)
  have := hb p hp
  simp only [List.mem_cons, List.not_mem_nil, or_false] at this
  rcases this with rfl | rfl | rfl | rfl
  · exact refuses_single (http_refuses_first env.cluster e0 (by decide))
  · exact refuses_single (redis_refuses e0 (by decide) (by decide) (by decide))
  · exact refuses_single (kafka_refuses_key e4 (by decide))
  · exact refuses_single (dubbo_refuses (.inl (by rw [e0]; decide)))

/-- With a response whose fifth byte is 1 too (a RocketMQ response in the binary form) or another byte that marks neither an error nor the
end of a result, MySQL's parser refuses in the end. -/
theorem mysql_refuses_answered (env : Env) (x : Exchange) {r : Events} (hr : x.resp = some r) (h : x.req.getData[4]? = some 1) {c : UInt8} (hc : r.getData[4]? = some c)
    (h0 : c ≠ 0) (hf : c ≠ 0xff) (he : c ≠ 0xfe) (h6 : 6 ≤ r.getData.length) : Refuses env x .mysql := by
  obtain ⟨p, t, hp, hd⟩ := split5 h
  obtain ⟨p', t', hp', hd'⟩ := split5 hc
  have e := Mysql.mysql_quit p hp t
  rw [← hd] at e
  have ht : t' ≠ [] := by
    rintro rfl
    rw [hd'] at h6
    simp [hp'] at h6
  have e' := Mysql.mysql_other_response p' hp' c hf t' ht [(bs "one_way", .bool true)]
  rw [← hd'] at e'
  have hk : AMap.get [(bs "one_way", AttrVal.bool true)] Mysql.kSql = none := by decide +kernel
  simp only [Refuses, parseProtocol, parseSingle, e, Res.bind_ok, hr, Bool.not_true, Bool.false_eq_true, ↓reduceIte, e', hk, h0, he, Option.isSome_none, or_self,
    decide_false, Bool.not_false]
  rfl

/-- C103: a RocketMQ exchange in the binary form with its response, the header length being zero modulo 65536 or large enough against the payload,
is taken by no parser other than RocketMQ's. -/
theorem rocketmq_binary_alone (env : Env) (x : Exchange) (hs : Starts x) {r : Events} (hr : x.resp = some r) (len : Nat) (hlen : len < 2 ^ 24) (a b c : UInt8)
    (lv flag4 rest : Bytes) (code oid remark ext : Nat)
    (hd : x.req.getData = Rocketmq.binary (be32 len) [a, b, c] code lv oid flag4 remark ext rest)
    (hn : b.toNat * 256 + c.toNat ≠ 0 → x.req.getData.length ≤ 5 * (b.toNat * 256 + c.toNat) + 10)
    (h4 : r.getData[4]? = some 1) (h6 : 6 ≤ r.getData.length) : Alone env x .rocketmq := by
  refine ⟨by decide, ?_⟩
  have z0 : len / 16777216 = 0 := by omega
  have e0 : x.req.getData[0]? = some 0 := by rw [hd]; simp [Rocketmq.binary, be32, z0]
  have e4 : x.req.getData[4]? = some 1 := by rw [hd]; simp [Rocketmq.binary, be32]
  have e6 : x.req.getData[6]? = some b := by rw [hd]; simp [Rocketmq.binary, be32]
  have e7 : x.req.getData[7]? = some c := by rw [hd]; simp [Rocketmq.binary, be32]
  intro p h1 h2
  cases p with
  | rocketmq => exact absurd rfl h1
  | generic => exact absurd rfl h2
  | mysql => exact mysql_refuses_answered env x hr e4 h4 (by decide) (by decide) (by decide) h6
  | http => exact refuses_single (http_refuses_first env.cluster e0 (by decide))
  | redis => exact refuses_single (redis_refuses e0 (by decide) (by decide) (by decide))
  | kafka => exact refuses_single (kafka_refuses_key e4 (by decide))
  | dubbo => exact refuses_single (dubbo_refuses (.inl (by rw [e0]; decide)))
  | dns => exact refuses_dns (dns_refuses_count hs e6 e7 hn)

/-! ## DNS over TCP -/

/-- A query as it stands on a TCP stream. -/
def query (h : Dns.Header) (q : Dns.Question) (post : Bytes) : Bytes := be16 (h.enc ++ q.enc ++ post).length ++ h.enc ++ q.enc ++ post

theorem query_bytes (h : Dns.Header) (q : Dns.Question) (post : Bytes) :
    (query h q post)[4]? = some (UInt8.ofNat (h.flags / 256)) ∧ ((h.enc ++ q.enc ++ post).length < 17152 → ∃ b, (query h q post)[0]? = some b ∧ b.toNat < 67) ∧
    6 ≤ (query h q post).length := by
  refine ⟨?_, fun hl => ⟨UInt8.ofNat ((h.enc ++ q.enc ++ post).length / 256), ?_, ?_⟩, ?_⟩
  · simp [query, Dns.Header.enc, be16]
  · simp only [query, be16]; rfl
  · simp only [UInt8.toNat_ofNat']; omega
  · simp [query, Dns.Header.enc, be16]

/-- A query is one segment, and so is the answer. -/
def dnsExchange (n : Int) (e : Evt) (r : Option Evt) : Exchange := ⟨newEvents e n, r.map (newEvents · n)⟩

theorem dns_own (e : Evt) (h : Dns.Header) (q : Dns.Question) (hf : h.Fits) (hq : Dns.Legal q.labels) (h1 : h.nq = 1) (post : Bytes) (he : e.data = query h q post) :
    dnsReq e = some ⟨h.id, Dns.nameText q.labels⟩ := by
  have := Dns.dns_request_parsed h q hf hq h1 (be16 (h.enc ++ q.enc ++ post).length) post
  have hl : (be16 (h.enc ++ q.enc ++ post).length).length = 2 := rfl
  rw [hl] at this
  have hff := (Dns.dns_message_tried h q (be16 (h.enc ++ q.enc ++ post).length) post).1
  simp only [dnsReq, dnsRequest, he, query, hff, this, Bool.false_eq_true, ↓reduceIte, Option.map_some]

theorem dns_own_answer (env : Env) (e : Evt) (h : Dns.Header) (q : Dns.Question) (hf : h.Fits) (hq : Dns.Legal q.labels) (h1 : h.nq = 1) (post : Bytes) (he : e.data = query h q post) :
    dnsResp env e = some ⟨h.id, Dns.nameText q.labels⟩ := by
  obtain ⟨r, this, g1, g2, -⟩ := Dns.dns_response_parsed env.ignore3 h q hf hq h1 (be16 (h.enc ++ q.enc ++ post).length) post
  have hl : (be16 (h.enc ++ q.enc ++ post).length).length = 2 := rfl
  rw [hl] at this
  have hff := (Dns.dns_message_tried h q (be16 (h.enc ++ q.enc ++ post).length) post).1
  simp only [dnsResp, he, query, hff, this, Bool.false_eq_true, ↓reduceIte, g1, g2]

theorem dns_first (env : Env) (x : Exchange) (h : Dns.Header) (q : Dns.Question) (hf : h.Fits) (post : Bytes) (hd : x.req.getData = query h q post)
    (hl : (h.enc ++ q.enc ++ post).length < 9000) : Refuses env x .http ∧ Refuses env x .redis ∧ Refuses env x .dubbo ∧ (1 ≤ h.flags / 256 → Refuses env x .kafka) := by
  obtain ⟨e4, -, -⟩ := query_bytes h q post
  have e0 : x.req.getData[0]? = some (UInt8.ofNat ((h.enc ++ q.enc ++ post).length / 256)) := by rw [hd]; simp only [query, be16]; rfl
  have hb : (UInt8.ofNat ((h.enc ++ q.enc ++ post).length / 256)).toNat < 36 := by simp only [UInt8.toNat_ofNat']; omega
  rw [← hd] at e4
  refine ⟨refuses_single (http_refuses_first env.cluster e0 (by omega)),
    refuses_single (redis_refuses e0 (byte_ne (k := 42) (by omega) (by omega)) (byte_ne (k := 36) (by omega) (by omega)) (byte_ne (k := 58) (by omega) (by omega))),
    refuses_single (dubbo_refuses (.inl (by rw [e0]; intro e; injection e with e; exact byte_ne (k := 0xda) (by omega) (by omega) e))), fun hfl => ?_⟩
  refine refuses_single (kafka_refuses_key e4 (byte_ne (k := 0) (by omega) ?_))
  have := hf.2.1
  simp only [UInt8.toNat_ofNat']
  omega

/-- C103: a DNS query over TCP with its answer is reported as such if the parsers tried before are among HTTP's, MySQL's, Redis' and Dubbo's. -/
theorem dns_reported (env : Env) (n : Int) (e r : Evt) (h h' : Dns.Header) (q : Dns.Question) (hf : h.Fits) (hf' : h'.Fits) (hq : Dns.Legal q.labels) (h1 : h.nq = 1) (h1' : h'.nq = 1)
    (hid : h'.id = h.id) (hfl : h.flags < 512) (hfl' : 0x8000 ≤ h'.flags ∧ h'.flags < 0xfe00) (post post' : Bytes) (he : e.data = query h q post) (hr : r.data = query h' q post')
    (hl : (h.enc ++ q.enc ++ post).length < 9000) (before after : List Name) (hb : ∀ p ∈ before, p ∈ [Name.http, .mysql, .redis, .dubbo]) :
    choose env (dnsExchange n e (some r)) (before ++ .dns :: after) = .ok (some (.dns, .several [⟨0, e, some r⟩])) := by
  obtain ⟨r1, r2, r3, -⟩ := dns_first env (dnsExchange n e (some r)) h q hf post he hl
  have hm : Refuses env (dnsExchange n e (some r)) .mysql := by
    obtain ⟨e4, -, -⟩ := query_bytes h q post
    obtain ⟨e4', -, e6'⟩ := query_bytes h' q post'
    have hx : (dnsExchange n e (some r)).req.getData = query h q post := he
    rw [← he] at e4
    rw [← hr] at e4' e6'
    by_cases hz : h.flags / 256 = 0
    · rw [hz] at e4
      exact refuses_single (mysql_refuses e4 (by decide) (by decide) (by decide))
    · have h1 : h.flags / 256 = 1 := by omega
      rw [h1] at e4
      have hv : (UInt8.ofNat (h'.flags / 256)).toNat = h'.flags / 256 := by simp only [UInt8.toNat_ofNat']; omega
      exact mysql_refuses_answered env _ rfl e4 e4' (byte_ne (k := 0) (by omega) (by omega)) (byte_ne (k := 255) (by omega) (by omega)) (byte_ne (k := 254) (by omega) (by omega)) e6'
  rw [choose_after (fun p hp => ?_), choose]
  · have hq1 := dns_own e h q hf hq h1 post he
    have hq2 := dns_own_answer env r h' q hf' hq h1' post' hr
    have : parseProtocol env .dns (dnsExchange n e (some r)) = .ok (.several [⟨0, e, some r⟩]) := by
      simp [parseProtocol, Multi.parseMultipleRequests, eventsOf, dnsExchange, newEvents, Events.merged, mapOpt, hq1, Multi.matchResponses, hq2, Multi.pairMatch, hid, Multi.unmatched]
    rw [this]
  · have := hb p hp
    simp only [List.mem_cons, List.not_mem_nil, or_false] at this
    rcases this with rfl | rfl | rfl | rfl <;> assumption

/-- C103: so is an unanswered query that does not ask for recursion. -/
theorem dns_unanswered_reported (env : Env) (n : Int) (e : Evt) (h : Dns.Header) (q : Dns.Question) (hf : h.Fits) (hq : Dns.Legal q.labels) (h1 : h.nq = 1)
    (hfl : h.flags < 256) (post : Bytes) (he : e.data = query h q post)
    (hl : (h.enc ++ q.enc ++ post).length < 9000) (before after : List Name) (hb : ∀ p ∈ before, p ∈ [Name.http, .mysql, .redis, .dubbo]) :
    choose env (dnsExchange n e none) (before ++ .dns :: after) = .ok (some (.dns, .several [⟨0, e, none⟩])) := by
  obtain ⟨r1, r2, r3, -⟩ := dns_first env (dnsExchange n e none) h q hf post he hl
  have hm : Refuses env (dnsExchange n e none) .mysql := by
    obtain ⟨e4, -, -⟩ := query_bytes h q post
    rw [← he, show h.flags / 256 = 0 by omega] at e4
    exact refuses_single (presp := Mysql.parseResponse) (mysql_refuses e4 (by decide) (by decide) (by decide))
  rw [choose_after (fun p hp => ?_), choose]
  · have hq1 := dns_own e h q hf hq h1 post he
    have : parseProtocol env .dns (dnsExchange n e none) = .ok (.several [⟨0, e, none⟩]) := by
      simp [parseProtocol, Multi.parseMultipleRequests, eventsOf, dnsExchange, newEvents, Events.merged, mapOpt, hq1, Multi.unmatched]
    rw [this]
  · have := hb p hp
    simp only [List.mem_cons, List.not_mem_nil, or_false] at this
    rcases this with rfl | rfl | rfl | rfl <;> assumption

/-- C103 fails of the code: an unanswered query that asks for recursion, as those of every resolver library, is lost if MySQL's parser comes first. -/
theorem dns_unanswered_lost (env : Env) (n : Int) (e : Evt) (h : Dns.Header) (q : Dns.Question) (hf : h.Fits) (hfl : 256 ≤ h.flags ∧ h.flags < 512) (post : Bytes)
    (he : e.data = query h q post) (hl : (h.enc ++ q.enc ++ post).length < 9000) (before after : List Name) (hb : ∀ p ∈ before, p ∈ [Name.http, .redis, .kafka, .dubbo]) :
    choose env (dnsExchange n e none) (before ++ .mysql :: after) = .ok (some (.mysql, .nothing)) := by
  obtain ⟨r1, r2, r3, r4⟩ := dns_first env (dnsExchange n e none) h q hf post he hl
  have r4 := r4 (by omega)
  obtain ⟨e4, -, -⟩ := query_bytes h q post
  rw [← he, show h.flags / 256 = 1 by omega] at e4
  refine quit_swallows env (dnsExchange n e none) rfl e4 before after (fun p hp => ?_)
  have := hb p hp
  simp only [List.mem_cons, List.not_mem_nil, or_false] at this
  rcases this with rfl | rfl | rfl | rfl <;> assumption

/-! ## With the parsers remembered for a port -/

/-- `parseProtocol` returns something other than nil. -/
def accepted (env : Env) (n : Name) (x : Exchange) : Bool :=
  match parseProtocol env n x with
  | .ok .nil => false
  | .ok _ => true
  | _ => false

def call (env : Env) (port : Nat) (x : Exchange) : Dispatch.Call Name := ⟨port, true, fun n => accepted env n x⟩

theorem find_alone {env : Env} {x : Exchange} {n : Name} (h : Alone env x n) (ha : accepted env n x = true) (l : List Name) (hg : Name.generic ∉ l) :
    l.find? (fun p => accepted env p x) = if n ∈ l then some n else none := by
  induction l with
  | nil => rfl
  | cons p l ih =>
    have hg' : Name.generic ∉ l := fun hh => hg (by simp [hh])
    by_cases hp : p = n
    · subst hp; simp [ha]
    · have : accepted env p x = false := by
        have := h.2 p hp (fun e => hg (by simp [e]))
        simp only [Refuses] at this
        simp [accepted, this]
      rw [List.find?_cons, this]
      simp only [ih hg']
      simp [Ne.symm hp]

/-- C103: until the generic parser is remembered for the port, whatever the others remembered, the exchange is reported by the one parser that takes it. -/
theorem dispatched_partial (env : Env) (x : Exchange) (n : Name) (h : Alone env x n) {r : Verdict} (hr : parseProtocol env n x = .ok r) (hne : r ≠ .nil) (grow : Nat → Nat) (cfg : Dispatch.Cfg Name)
    (names : List String) (configs : List (String × Bool)) (hk : n.key ∈ names) (hd : disabled configs n.key = false) (hg : "NOSUPPORT" ∉ names)
    (hc : cfg.named = named names configs) (hcg : cfg.generic = .generic) (σ : Dispatch.DSt Name) (port : Nat) (hp : AMap.get cfg.staticPorts port = none)
    (hl : Name.generic ∉ Cache.listOf σ.cache port) : ∃ σ', Dispatch.parseProtocols grow cfg σ (call env port x) = some (.parsed n, σ') := by
  have ha : accepted env n x = true := by
    unfold accepted
    rw [hr]
    cases r <;> first | exact absurd rfl hne | rfl
  have hm := (mem_named names configs n).2 ⟨hk, hd⟩
  have hng : Name.generic ∉ named names configs := fun hh => hg ((mem_named names configs .generic).1 hh).1
  have hf := find_alone h ha _ hl
  have hcall : (call env port x).port = port := rfl
  simp only [Dispatch.parseProtocols, hcall, hp]
  rw [if_pos (show (call env port x).hasRequests = true from rfl), show (call env port x).accepts = (fun p => accepted env p x) from rfl, hf]
  by_cases hin : n ∈ Cache.listOf σ.cache port
  · rw [if_pos hin]
    simp only [Dispatch.stepCached, hcg, if_neg h.1]
    exact ⟨_, rfl⟩
  · rw [if_neg hin]
    have hf2 := find_alone h ha _ hng
    have : (cfg.named ++ [cfg.generic]).find? (call env port x).accepts = some n := by
      rw [List.find?_append, hc, show (call env port x).accepts = (fun n => accepted env n x) from rfl, hf2, if_pos hm]; rfl
    simp only [Dispatch.stepAll, this]
    split <;> exact ⟨_, rfl⟩

/-- C103 fails of the code once fifty unknown exchanges were seen on the port: while the generic parser is remembered and `n` is not, every exchange of `n` is
reported as unknown. -/
theorem dispatched_unknown (env : Env) (x : Exchange) (n : Name) (h : Alone env x n) (grow : Nat → Nat) (cfg : Dispatch.Cfg Name) (hcg : cfg.generic = .generic)
    (σ : Dispatch.DSt Name) (port : Nat) (hp : AMap.get cfg.staticPorts port = none) (hl : Name.generic ∈ Cache.listOf σ.cache port) (hn : n ∉ Cache.listOf σ.cache port)
    {o : Dispatch.Out Name} {σ' : Dispatch.DSt Name} (hr : Dispatch.parseProtocols grow cfg σ (call env port x) = some (o, σ')) : o = .parsed .generic := by
  have hf : (Cache.listOf σ.cache port).find? (call env port x).accepts = some .generic := by
    generalize Cache.listOf σ.cache port = l at hl hn
    induction l with
    | nil => cases hl
    | cons p l ih =>
      by_cases hpg : p = .generic
      · subst hpg
        have : accepted env .generic x = true := by simp [accepted, generic_takes]
        simp [call, this]
      · have : accepted env p x = false := by
          have := h.2 p (fun e => hn (by simp [e])) hpg
          simp only [Refuses] at this
          simp [accepted, this]
        rw [List.find?_cons, show (call env port x).accepts p = false from this]
        exact ih ((List.mem_cons.1 hl).resolve_left (Ne.symm hpg)) (fun hh => hn (by simp [hh]))
  have hcall : (call env port x).port = port := rfl
  simp only [Dispatch.parseProtocols, hcall, hp] at hr
  rw [if_pos (show (call env port x).hasRequests = true from rfl), hf] at hr
  simp only [Dispatch.stepCached, hcg, ↓reduceIte] at hr
  split at hr
  · split at hr
    · cases hr
    · cases hr; rfl
  · cases hr; rfl

/-! ## The hypotheses can be met -/

def exEnv : Env := ⟨id, false, ⟨fun _ => none, fun _ => [], fun _ => none⟩⟩
/-- An unanswered request of one segment. -/
def oneSegment (d : Bytes) : Exchange := ⟨mergeAll 1000 { pid := 1, fd := 2, data := d } [], none⟩

example : JsonText exEnv.mq := ⟨rfl, fun _ => rfl⟩
example : Alone exEnv (oneSegment (bs "GET /a HTTP/1.1\r\n\r\n")) .http :=
  http_alone exEnv _ (starts_merge _ _ _ _) (bs "GET") (bs "/a") (bs "1\r\n\r\n") (by decide +kernel) (by decide +kernel) (by decide +kernel) (by decide +kernel)
example : Alone exEnv (oneSegment ([9, 0, 0, 0] ++ 3 :: ([] ++ bs "select 1"))) .mysql :=
  mysql_alone exEnv _ (starts_merge _ _ _ _) 9 0 3 (.inr rfl) [] (bs "select 1") (.inl rfl)
    ⟨bs "select", by decide +kernel, bs "select", bs " 1", by decide +kernel, by decide +kernel⟩ rfl (by decide +kernel)
example : Alone exEnv (oneSegment (Redis.encode (Redis.request [bs "GET", bs "k"]) ++ [])) .redis :=
  redis_alone exEnv _ (starts_merge _ _ _ _) [bs "GET", bs "k"] (by decide +kernel) [] rfl (by decide +kernel)
example : Alone exEnv (oneSegment (Kafka.request 30 1 4 7 (bs "sarama") (bs "...."))) .kafka :=
  kafka_alone exEnv ⟨rfl, fun _ => rfl⟩ _ (starts_merge _ _ _ _) 30 1 4 7 (bs "sarama") (bs "....") (by decide) (by decide) (by decide) (by decide)
    (.inr ⟨115, bs "arama", by decide +kernel, by decide, by decide⟩) rfl
example : Alone exEnv (oneSegment (Dubbo.header 0xc2 0 (0 :: 0 :: 0 :: 0 :: [0, 0, 0, 5, 0, 0, 0, 9]) ++ bs "x")) .dubbo :=
  dubbo_alone exEnv ⟨rfl, fun _ => rfl⟩ _ (starts_merge _ _ _ _) 0xc2 0 [0, 0, 0, 5, 0, 0, 0, 9] (bs "x") rfl
example : Alone exEnv (oneSegment (be32 40 ++ be32 (bs "{\"code\":105,\"opaque\":3}").length ++ bs "{\"code\":105,\"opaque\":3}" ++ [])) .rocketmq :=
  rocketmq_alone exEnv _ (starts_merge _ _ _ _) 40 (bs "{\"code\":105,\"opaque\":3}") [] (by decide) (by decide +kernel) (by decide +kernel) (by decide +kernel) rfl
/-- A RocketMQ heartbeat in the binary form. -/
example : choose exEnv (oneSegment (Rocketmq.binary (be32 25) [0, 0, 21] 34 [0, 0, 0] 7 [0, 0, 0, 0] 0 0 [])) [.http, .mysql, .redis, .kafka, .rocketmq, .generic] =
    .ok (some (.mysql, .nothing)) :=
  rocketmq_binary_lost exEnv _ rfl 25 (by decide) [0, 0, 21] [0, 0, 0] [0, 0, 0, 0] [] 34 7 0 0 rfl [.http] [.redis, .kafka, .rocketmq, .generic] (by decide)
/-- A query for an address with the flag of `RFC 1035` asking for recursion. -/
example : choose exEnv (dnsExchange 1000 { pid := 1, fd := 2, data := query ⟨7, 256, 1, 0, 0, 0⟩ ⟨[bs "a", bs "b"], 1, 1⟩ [] } none) [.http, .mysql, .dns, .generic] =
    .ok (some (.mysql, .nothing)) :=
  dns_unanswered_lost exEnv 1000 _ ⟨7, 256, 1, 0, 0, 0⟩ ⟨[bs "a", bs "b"], 1, 1⟩ (by simp only [Dns.Header.Fits]; decide) (by decide) [] rfl (by decide +kernel) [.http] [.dns, .generic] (by decide)
example : named ["http", "mysql", "dns", "redis", "kafka", "dubbo", "cassandra"] [("dns", true)] = [.http, .mysql, .redis, .kafka, .dubbo] := by decide +kernel

theorem merged_events (es : List Evt) : ∀ s : Events, s.merged.events.head? = some s.event → s.merged.events.length ≤ 10 →
    eventsOf (es.foldl Events.merge s) = (s.merged.events ++ es).take 10 := by
  induction es with
  | nil =>
    intro s h hl
    cases hm : s.merged.events with
    | nil => rw [hm] at h; cases h
    | cons a r =>
      rw [hm] at h hl
      simp only [List.head?_cons, Option.some.injEq] at h
      simp only [List.foldl_nil, eventsOf, hm, h, List.drop_succ_cons, List.drop_zero, List.append_nil]
      rw [List.take_of_length_le (by simpa using hl)]
  | cons e r ih =>
    intro s h hl
    have hev : (s.merge e).event = s.event := rfl
    have hme : (s.merge e).merged.events = if s.merged.events.length < 10 then s.merged.events ++ [e] else s.merged.events := rfl
    rw [List.foldl_cons, ih (s.merge e)]
    · rw [hme]
      split
      · simp
      · have : s.merged.events.length = 10 := by omega
        rw [List.take_append_of_le_length (by omega), List.take_append_of_le_length (by omega)]
    · rw [hev, hme]
      split
      · cases hm : s.merged.events with
        | nil => rw [hm] at h; cases h
        | cons a r => rw [hm] at h; simpa using h
      · exact h
    · rw [hme]
      split
      · simp; omega
      · exact hl

/-- C103: the DNS parser sees the events that make up the merged message one by one, the first ten of them. -/
theorem dns_sees_ten (e0 : Evt) (es : List Evt) (m : Int) : eventsOf (es.foldl Events.merge (newEvents e0 m)) = (e0 :: es).take 10 :=
  merged_events es (newEvents e0 m) rfl (by simp [newEvents, Events.merged])

example (e0 e1 : Evt) : eventsOf ((newEvents e0 5).merge e1) = [e0, e1] := dns_sees_ten e0 [e1] 5

end Kindling.Flow.Choose
