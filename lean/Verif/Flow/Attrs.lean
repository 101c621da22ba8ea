import Verif.Proto.Kafka
import Verif.Proto.Mysql
import Verif.Proto.DnsMsg
import Verif.Net.Record
import Verif.Proc.Aggregate
/-
What the parsers write.  The record of an exchange (`Net/Record.lean`) relies on the parsers leaving its own labels
alone and setting `is_error` and `error_type` together; here this is proved of the modelled parsers, for all payloads.
-/
namespace Kindling.Flow
open Kindling Kindling.Agg Kindling.Proto Kindling.Model.Attr

def kIsError : Bytes := bs "is_error"
def kErrorType : Bytes := bs "error_type"

/-- Spec: from `a` to `a'` only the labels `ks` were written, and the two error labels either not at all or as a protocol
error. -/
structure Kept (ks : List Bytes) (a a' : Attrs) : Prop where
  other : ∀ k, k ∉ ks → k ≠ kIsError → k ≠ kErrorType → AMap.get a' k = AMap.get a k
  err : (AMap.get a' kIsError = AMap.get a kIsError ∧ AMap.get a' kErrorType = AMap.get a kErrorType) ∨
    (AMap.get a' kIsError = some (.bool true) ∧ AMap.get a' kErrorType = some (.int 3))

theorem Kept.refl (ks : List Bytes) (a : Attrs) : Kept ks a a := ⟨fun _ _ _ _ => rfl, Or.inl ⟨rfl, rfl⟩⟩

theorem Kept.trans {ks : List Bytes} {a b c : Attrs} (h1 : Kept ks a b) (h2 : Kept ks b c) : Kept ks a c := by
  refine ⟨fun k hk h3 h4 => (h2.other k hk h3 h4).trans (h1.other k hk h3 h4), ?_⟩
  rcases h2.err with ⟨e1, e2⟩ | h
  · rw [e1, e2]; exact h1.err
  · exact Or.inr h

theorem Kept.add {ks : List Bytes} {a : Attrs} {m : Msg} (h : Kept ks a m.attrs) (k : Bytes) (v : AttrVal) (hk : k ∈ ks)
    (h1 : k ≠ kIsError := by decide +kernel) (h2 : k ≠ kErrorType := by decide +kernel) : Kept ks a (m.add k v).attrs := by
  refine ⟨fun k' hk' h3 h4 => ?_, ?_⟩
  · have : k ≠ k' := fun e => hk' (e ▸ hk)
    simp only [Msg.add]
    rw [AMap.get_set_ne _ _ this]
    exact h.other k' hk' h3 h4
  · simp only [Msg.add]
    rw [AMap.get_set_ne _ _ h1, AMap.get_set_ne _ _ h2]
    exact h.err

theorem errKeys_ne : kIsError ≠ kErrorType := by decide +kernel

theorem Kept.error {ks : List Bytes} {a : Attrs} {m : Msg} (h : Kept ks a m.attrs) :
    Kept ks a ((m.add kIsError (.bool true)).add kErrorType (.int 3)).attrs := by
  refine ⟨fun k' hk' h3 h4 => ?_, Or.inr ⟨?_, ?_⟩⟩
  · simp only [Msg.add]
    rw [AMap.get_set_ne _ _ (Ne.symm h4), AMap.get_set_ne _ _ (Ne.symm h3)]
    exact h.other k' hk' h3 h4
  · simp only [Msg.add]
    rw [AMap.get_set_ne _ _ (Ne.symm errKeys_ne), AMap.get_set_self]
  · simp only [Msg.add]
    rw [AMap.get_set_self]

/-- A call that hands a message on. -/
def Keeps {β : Type} (ks : List Bytes) (m : Msg) (r : Res (β × Msg)) : Prop := ∀ x m', r = .ok (x, m') → Kept ks m.attrs m'.attrs

theorem Keeps.bind {α β : Type} {ks : List Bytes} {m : Msg} {r : Res α} {f : α → Res (β × Msg)}
    (h : ∀ a, r = .ok a → Keeps ks m (f a)) : Keeps ks m (r >>= f) := by
  intro x m' he
  cases r with
  | ok a => exact h a rfl x m' he
  | err => cases he
  | panic => cases he

theorem Keeps.ok {β : Type} {ks : List Bytes} {m m' : Msg} {x : β} (h : Kept ks m.attrs m'.attrs) : Keeps ks m (.ok (x, m')) := by
  intro y m'' he; cases he; exact h

theorem Keeps.pure {β : Type} {ks : List Bytes} {m m' : Msg} {x : β} (h : Kept ks m.attrs m'.attrs) :
    Keeps ks m (Pure.pure (x, m')) := Keeps.ok h

theorem Keeps.panic {β : Type} {ks : List Bytes} {m : Msg} : Keeps ks m (.panic : Res (β × Msg)) := by
  intro y m'' he; cases he

/-- A parser that writes only `ks`. -/
def Writes (ks : List Bytes) (f : ParseFn) : Prop := ∀ m, Keeps ks m (f m)

theorem leaf_keeps {ks : List Bytes} {l : Leaf} (h : Writes ks l.parse) (m : Msg) : Keeps ks m (l.run m) := by
  unfold Leaf.run
  refine Keeps.bind fun ff _ => ?_
  split
  · exact Keeps.pure (Kept.refl _ _)
  · refine Keeps.bind fun r hr => ?_
    obtain ⟨⟨o, c⟩, m'⟩ := r
    have hk := h m _ _ hr
    simp only
    split
    · exact Keeps.pure hk
    · split <;> exact Keeps.pure hk

theorem children_keep {ks : List Bytes} (ls : List Leaf) (h : ∀ l ∈ ls, Writes ks l.parse) (m : Msg) :
    Keeps ks m (runChildren ls m) := by
  induction ls generalizing m with
  | nil => exact Keeps.pure (Kept.refl _ _)
  | cons l r ih =>
    unfold runChildren
    refine Keeps.bind fun x hx => ?_
    obtain ⟨s, m'⟩ := x
    have hk := leaf_keeps (h l (by simp)) m _ _ hx
    simp only
    split
    · intro y m'' he
      exact hk.trans (ih (fun l hl => h l (by simp [hl])) m' _ _ he)
    · exact Keeps.pure hk

theorem tree_keeps {ks : List Bytes} {t : Tree} (h : Writes ks t.parse) (hc : ∀ l ∈ t.children, Writes ks l.parse) (m : Msg) :
    Keeps ks m (t.run m) := by
  unfold Tree.run
  refine Keeps.bind fun ff _ => ?_
  split
  · exact Keeps.pure (Kept.refl _ _)
  · refine Keeps.bind fun r hr => ?_
    obtain ⟨⟨o, c⟩, m'⟩ := r
    have hk := h m _ _ hr
    simp only
    split
    · exact Keeps.pure hk
    · split
      · exact Keeps.pure hk
      · split
        · exact Keeps.pure hk
        · intro y m'' he
          exact hk.trans (children_keep _ hc m' _ _ he)

theorem single_keeps {ks : List Bytes} {t : Tree} (h : Writes ks t.parse) (hc : ∀ l ∈ t.children, Writes ks l.parse) (m : Msg) :
    Keeps ks m (t.single m) := by
  unfold Tree.single
  refine Keeps.bind fun r hr => ?_
  obtain ⟨s, m'⟩ := r
  exact Keeps.pure (tree_keeps h hc m _ _ hr)

theorem frames_keep {ks : List Bytes} {t : Tree} (h : Writes ks t.parse) (hc : ∀ l ∈ t.children, Writes ks l.parse) (n : Nat) (m : Msg)
    (r : Res (Bool × Msg)) (hr : t.frames n m = some r) : Keeps ks m r := by
  induction n generalizing m with
  | zero => simp [Tree.frames] at hr
  | succ n ih =>
    unfold Tree.frames at hr
    split at hr
    · cases hr; exact Keeps.panic
    · cases hr; intro x m' he; cases he
    · rename_i m' he
      have hk := tree_keeps h hc m _ _ he
      intro x m'' he'
      exact hk.trans (ih m' hr x m'' he')
    · rename_i s m' _ he
      cases hr
      exact Keeps.ok (tree_keeps h hc m _ _ he)

/-! ### The parsers -/

/-- Labels of HTTP requests and responses (http_request.go:50-69, http_response.go:52-75). -/
def httpQ : List Bytes := [Http.kTraceType, Http.kTraceId, Http.kMethod, Http.kUrl, Http.kContentKey]
def httpR : List Bytes := [Http.kTraceType, Http.kTraceId, Http.kStatus, Http.kContinue]

theorem addTrace_kept {ks : List Bytes} {a : Attrs} {m : Msg} (h : Kept ks a m.attrs) (h1 : Http.kTraceType ∈ ks) (h2 : Http.kTraceId ∈ ks) :
    Kept ks a (Http.addTrace m).attrs := by
  simp only [Http.addTrace]
  split
  · exact (h.add _ _ h1).add _ _ h2
  · exact h

theorem http_request_writes (cluster : Bytes → Bytes) : Writes httpQ (Http.requestParse cluster) := by
  intro m
  unfold Http.requestParse
  refine Keeps.bind fun r _ => ?_
  obtain ⟨o, meth⟩ := r
  refine Keeps.bind fun r _ => ?_
  cases r with
  | none => exact Keeps.pure (Kept.refl _ _)
  | some meth =>
    refine Keeps.bind fun r _ => ?_
    exact Keeps.pure ((((addTrace_kept (Kept.refl _ _) (by simp [httpQ]) (by simp [httpQ])).add _ _ (by simp [httpQ])).add _ _ (by simp [httpQ])).add _ _ (by simp [httpQ]))

theorem http_response_writes : Writes httpR Http.responseParse := by
  intro m
  unfold Http.responseParse
  refine Keeps.bind fun r _ => ?_
  obtain ⟨o, v⟩ := r
  refine Keeps.bind fun r _ => ?_
  obtain ⟨o', code⟩ := r
  simp only
  split
  · exact Keeps.pure (Kept.refl _ _)
  · refine Keeps.pure ?_
    have h0 : Kept httpR m.attrs ({ m with offset := o.toNat } : Msg).attrs := Kept.refl _ _
    generalize ({ m with offset := o.toNat } : Msg) = m0 at h0 ⊢
    generalize Http.clampStatus (Dec.parseInt 64 code).1 = s
    unfold Http.responseAttrs
    simp only
    have h1 : Kept httpR m.attrs (if s = 100 then m0.add Http.kContinue (.bool true) else m0).attrs := by
      split
      · exact h0.add _ _ (by simp [httpR])
      · exact h0
    generalize (if s = 100 then m0.add Http.kContinue (.bool true) else m0) = m1 at h1 ⊢
    have h2 : Kept httpR m.attrs (if (!m1.has Http.kTraceType) = true then Http.addTrace m1 else m1).attrs := by
      split
      · exact addTrace_kept h1 (by simp [httpR]) (by simp [httpR])
      · exact h1
    generalize (if (!m1.has Http.kTraceType) = true then Http.addTrace m1 else m1) = m2 at h2 ⊢
    have h3 := h2.add Http.kStatus (.int s) (by simp [httpR])
    split
    · exact h3.error
    · exact h3

/-- Labels of MySQL (mysql_request.go:79-117, mysql_response.go:53-60). -/
def mysqlQ : List Bytes := [Mysql.kSql, Mysql.kContentKey, Mysql.kOneway]
def mysqlR : List Bytes := [Mysql.kErrCode, Mysql.kErrMsg]

theorem mysql_statement_kept (m : Msg) (sql : Bytes) : Keeps mysqlQ m (Mysql.statement m sql) := by
  unfold Mysql.statement
  split
  · exact Keeps.pure (Kept.refl _ _)
  · exact Keeps.pure (((Kept.refl _ _).add _ _ (by simp [mysqlQ])).add _ _ (by simp [mysqlQ]))

theorem mysql_request_writes : ∀ l ∈ Mysql.requestTree.children, Writes mysqlQ l.parse := by
  intro l hl m
  simp only [Mysql.requestTree, List.mem_cons, List.not_mem_nil, or_false] at hl
  rcases hl with rfl | rfl | rfl
  · exact Keeps.bind fun _ _ => mysql_statement_kept m _
  · exact Keeps.bind fun _ _ => mysql_statement_kept m _
  · exact Keeps.pure ((Kept.refl _ _).add _ _ (by simp [mysqlQ]))

theorem mysql_response_writes : ∀ l ∈ Mysql.responseTree.children, Writes mysqlR l.parse := by
  intro l hl m
  simp only [Mysql.responseTree, List.mem_cons, List.not_mem_nil, or_false] at hl
  rcases hl with rfl | rfl | rfl | rfl
  · simp only [Mysql.parseErr]
    refine Keeps.bind fun _ _ => Keeps.bind fun _ _ => Keeps.bind fun _ _ => Keeps.bind fun text _ => ?_
    have h1 := fun c => (((Kept.refl mysqlR m.attrs).add Mysql.kErrCode (.int c) (by simp [mysqlR])).add Mysql.kErrMsg (.str (Text.formatUtf8 text)) (by simp [mysqlR]))
    split
    · exact Keeps.pure (h1 _).error
    · exact Keeps.pure (h1 _)
  all_goals exact Keeps.pure (Kept.refl _ _)

theorem goOn_writes (ks : List Bytes) : Writes ks Mysql.goOn := fun _ => Keeps.pure (Kept.refl _ _)

/-- Labels of Dubbo (dubbo_request.go:20-25, dubbo_response.go:18-26). -/
def dubboQ : List Bytes := [Dubbo.kContentKey]
def dubboR : List Bytes := [Dubbo.kErrCode]

theorem dubbo_request_writes : Writes dubboQ Dubbo.requestParse := by
  intro m
  refine Keeps.bind fun k _ => ?_
  split
  · exact Keeps.pure (Kept.refl _ _)
  · exact Keeps.pure ((Kept.refl _ _).add _ _ (by simp [dubboQ]))

theorem dubbo_response_writes : Writes dubboR Dubbo.responseParse := by
  intro m
  refine Keeps.bind fun c _ => ?_
  simp only
  have h1 := (Kept.refl dubboR m.attrs).add Dubbo.kErrCode (.int c) (by simp [dubboR])
  split
  · exact Keeps.pure (Kept.refl _ _)
  · split
    · exact Keeps.pure h1.error
    · exact Keeps.pure h1

/-- Labels of RocketMQ (rocketmq_request.go:50-68, rocketmq_response.go:45-64). -/
def rocketmqQ : List Bytes := [Rocketmq.kContentKey, Rocketmq.kRequestMsg, Rocketmq.kOpaque]
def rocketmqR : List Bytes := [Rocketmq.kErrCode, Rocketmq.kErrMsg]

theorem rocketmq_request_writes (e : Rocketmq.Env) : Writes rocketmqQ (Rocketmq.requestParse e) := by
  intro m
  refine Keeps.bind fun h _ => ?_
  cases h with
  | none => exact Keeps.pure (Kept.refl _ _)
  | some h =>
    exact Keeps.pure ((((Kept.refl _ _).add _ _ (by simp [rocketmqQ])).add _ _ (by simp [rocketmqQ])).add _ _ (by simp [rocketmqQ]))

theorem rocketmq_response_writes (e : Rocketmq.Env) : Writes rocketmqR (Rocketmq.responseParse e) := by
  intro m
  refine Keeps.bind fun h _ => ?_
  cases h with
  | none => exact Keeps.pure (Kept.refl _ _)
  | some h =>
    simp only
    have h1 := (Kept.refl rocketmqR m.attrs).add Rocketmq.kErrCode (.int h.code) (by simp [rocketmqR])
    split
    · exact Keeps.pure (Kept.refl _ _)
    · split
      · exact Keeps.pure (h1.add Rocketmq.kErrMsg _ (by simp [rocketmqR])).error
      · exact Keeps.pure h1

/-- Labels of Kafka (kafka_request.go, kafka_response.go). -/
def kafkaQ : List Bytes := [Kafka.kApi, Kafka.kVersion, Kafka.kId, Kafka.kTopic]
def kafkaR : List Bytes := [Kafka.kTopic, Kafka.kErrorCode]

theorem kafka_request_root : Writes kafkaQ Kafka.requestHeader := by
  intro m
  unfold Kafka.requestHeader
  refine Keeps.bind fun _ _ => ?_
  split
  · exact Keeps.pure (Kept.refl _ _)
  refine Keeps.bind fun _ _ => Keeps.bind fun _ _ => ?_
  split
  · exact Keeps.pure (Kept.refl _ _)
  refine Keeps.bind fun _ _ => Keeps.bind fun clen _ => ?_
  split
  · exact Keeps.pure (Kept.refl _ _)
  split
  · exact Keeps.pure (Kept.refl _ _)
  have h0 : Kept kafkaQ m.attrs ({ m with offset := clen.toNat + 14 } : Msg).attrs := Kept.refl _ _
  exact Keeps.pure (((h0.add _ _ (by simp [kafkaQ])).add _ _ (by simp [kafkaQ])).add _ _ (by simp [kafkaQ]))

/-- A step of Kafka: the message it returns. -/
theorem attempt_keeps {ks : List Bytes} {m : Msg} {r : Res Msg} (h : ∀ m', r = .ok m' → Kept ks m.attrs m'.attrs) :
    Keeps ks m (Kafka.attempt m r) := by
  unfold Kafka.attempt
  cases r with
  | ok m' => exact Keeps.ok (h m' rfl)
  | err => exact Keeps.ok (Kept.refl _ _)
  | panic => exact Keeps.panic

theorem bind_msg {α : Type} {ks : List Bytes} {m : Msg} {r : Res α} {f : α → Res Msg}
    (h : ∀ a m', f a = .ok m' → Kept ks m.attrs m'.attrs) : ∀ m', (r >>= f) = .ok m' → Kept ks m.attrs m'.attrs := by
  intro m' he
  cases r with
  | ok a => exact h a m' he
  | err => cases he
  | panic => cases he

theorem topicAt_kept (m : Msg) (off : Int) (c : Bool) : ∀ m', Kafka.topicAt m off c = .ok m' → Kept kafkaQ m.attrs m'.attrs := by
  refine bind_msg fun a => ?_
  simp only
  split
  · refine bind_msg fun b m' he => ?_
    cases he
    exact (Kept.refl _ _).add _ _ (by simp [kafkaQ])
  · intro m' he; cases he; exact Kept.refl _ _

theorem responseTopic_kept (m : Msg) (off : Int) (c p : Bool) (code : Int) :
    ∀ m', Kafka.responseTopic m off c p code = .ok m' → Kept kafkaR m.attrs m'.attrs := by
  refine bind_msg fun a => ?_
  simp only
  split
  · refine bind_msg fun b => ?_
    split
    all_goals
    refine bind_msg fun d m' he => ?_
    cases he
    exact ((Kept.refl _ _).add _ _ (by simp [kafkaR])).add _ _ (by simp [kafkaR])
  · intro m' he; cases he; exact (Kept.refl _ _).add _ _ (by simp [kafkaR])

theorem kafka_request_writes : ∀ l ∈ Kafka.requestTree.children, Writes kafkaQ l.parse := by
  intro l hl m
  simp only [Kafka.requestTree, List.mem_cons, List.not_mem_nil, or_false] at hl
  rcases hl with rfl | rfl | rfl
  · exact attempt_keeps (topicAt_kept m _ _)
  · refine attempt_keeps ?_
    simp only [Kafka.produceRequest]
    split
    · exact bind_msg fun a => topicAt_kept m _ _
    · exact topicAt_kept m _ _
  · exact Keeps.pure (Kept.refl _ _)

theorem kafka_response_root : Writes kafkaR Kafka.responseHeader := by
  intro m
  unfold Kafka.responseHeader
  refine Keeps.bind fun _ _ => ?_
  split
  · exact Keeps.pure (Kept.refl _ _)
  refine Keeps.bind fun _ _ => ?_
  split <;> exact Keeps.pure (Kept.refl _ _)

theorem kafka_response_writes : ∀ l ∈ Kafka.responseTree.children, Writes kafkaR l.parse := by
  intro l hl m
  simp only [Kafka.responseTree, List.mem_cons, List.not_mem_nil, or_false] at hl
  rcases hl with rfl | rfl | rfl
  · refine attempt_keeps ?_
    simp only [Kafka.fetchResponse]
    split
    · exact bind_msg fun a => responseTopic_kept m _ _ _ _
    · exact responseTopic_kept m _ _ _ _
  · exact attempt_keeps (responseTopic_kept m _ _ _ _)
  · exact Keeps.pure (Kept.refl _ _)

/-- Labels of Redis (redis_bulk_string.go:37-41, redis_error.go:24-29). -/
def redisKeys : List Bytes := [Redis.kContentKey, Redis.kCommand, Redis.kErrMsg]

theorem finish_keeps {ks : List Bytes} {m m' : Msg} {o : Int} (h : Kept ks m.attrs m'.attrs) : Keeps ks m (Redis.finish m' o) :=
  Keeps.ok h

theorem failed_keeps {ks : List Bytes} {m : Msg} : Keeps ks m (Redis.failed m) := Keeps.ok (Kept.refl _ _)

theorem number_writes : Writes redisKeys Redis.parseNumber := by
  intro m
  unfold Redis.parseNumber
  split
  · exact Keeps.panic
  · exact failed_keeps
  · split
    · exact finish_keeps (Kept.refl _ _)
    · exact failed_keeps

theorem bulk_writes : Writes redisKeys Redis.parseBulk := by
  intro m
  unfold Redis.parseBulk
  split
  · exact Keeps.panic
  · exact failed_keeps
  · split
    · split
      · exact finish_keeps (Kept.refl _ _)
      · split
        · exact Keeps.panic
        · exact failed_keeps
        · split
          · exact failed_keeps
          · split
            · exact finish_keeps (((Kept.refl _ _).add _ _ (by simp [redisKeys])).add _ _ (by simp [redisKeys]))
            · exact finish_keeps (Kept.refl _ _)
    · exact failed_keeps

theorem simple_writes : Writes redisKeys Redis.parseSimple := by
  intro m
  unfold Redis.parseSimple
  split
  · exact Keeps.panic
  · exact failed_keeps
  · exact finish_keeps (Kept.refl _ _)

theorem error_writes : Writes redisKeys Redis.parseError := by
  intro m
  unfold Redis.parseError
  split
  · exact Keeps.panic
  · exact failed_keeps
  · split
    · exact finish_keeps ((Kept.refl _ _).add _ _ (by simp [redisKeys])).error
    · exact finish_keeps (Kept.refl _ _)

theorem redis_request_writes : ∀ l ∈ Redis.requestTree.children, Writes redisKeys l.parse := by
  intro l hl
  simp only [Redis.requestTree, List.mem_cons, List.not_mem_nil, or_false] at hl
  rcases hl with rfl | rfl | rfl
  · exact number_writes
  · exact bulk_writes
  · exact number_writes

theorem redis_response_writes : ∀ l ∈ Redis.responseTree.children, Writes redisKeys l.parse := by
  intro l hl
  simp only [Redis.responseTree, List.mem_cons, List.not_mem_nil, or_false] at hl
  rcases hl with rfl | rfl | rfl | rfl | rfl
  · exact number_writes
  · exact bulk_writes
  · exact number_writes
  · exact simple_writes
  · exact error_writes

/-! ### DNS -/

def kDomain : Bytes := bs "dns_domain"
def kDnsId : Bytes := bs "dns_id"
def kDnsIp : Bytes := bs "dns_ip"
def kRcode : Bytes := bs "dns_rcode"
def dnsQ : List Bytes := [kDnsId, kDomain]
def dnsR : List Bytes := [kDomain, kDnsIp, kDnsId, kRcode]

/-- The attributes a parsed request adds (dns_request.go:58-59). -/
def dnsRequestAttrs (m : Msg) (x : Dns.DnsAttrs) : Msg := (m.add kDnsId (.int x.id)).add kDomain (.str x.domain)

/-- Addresses separated by commas (dns_response.go:96-114). -/
def joinIps : List Bytes → Bytes
  | [] => []
  | [a] => a
  | a :: r => a ++ bs "," ++ joinIps r

/-- The attributes a parsed response adds (dns_response.go:73-82). -/
def dnsResponseAttrs (m : Msg) (x : Dns.DnsAttrs) : Msg :=
  let m1 := m.add kDomain (.str x.domain)
  let m2 := if joinIps x.ips ≠ [] then m1.add kDnsIp (.str (joinIps x.ips)) else m1
  let m3 := (m2.add kDnsId (.int x.id)).add kRcode (.int (x.rcode.getD 0))
  if x.isError then (m3.add kIsError (.bool true)).add kErrorType (.int 3) else m3

theorem dns_request_kept (m : Msg) (x : Dns.DnsAttrs) : Kept dnsQ m.attrs (dnsRequestAttrs m x).attrs :=
  ((Kept.refl _ _).add _ _ (by simp [dnsQ])).add _ _ (by simp [dnsQ])

theorem dns_response_kept (m : Msg) (x : Dns.DnsAttrs) : Kept dnsR m.attrs (dnsResponseAttrs m x).attrs := by
  unfold dnsResponseAttrs
  simp only
  have h1 := (Kept.refl dnsR m.attrs).add kDomain (.str x.domain) (by simp [dnsR])
  have h2 : Kept dnsR m.attrs (if joinIps x.ips ≠ [] then (m.add kDomain (.str x.domain)).add kDnsIp (.str (joinIps x.ips))
      else m.add kDomain (.str x.domain)).attrs := by
    split
    · exact h1.add _ _ (by simp [dnsR])
    · exact h1
  generalize (if joinIps x.ips ≠ [] then (m.add kDomain (.str x.domain)).add kDnsIp (.str (joinIps x.ips))
      else m.add kDomain (.str x.domain)) = m2 at h2 ⊢
  have h3 := (h2.add kDnsId (.int x.id) (by simp [dnsR])).add kRcode (.int (x.rcode.getD 0)) (by simp [dnsR])
  split
  · exact h3.error
  · exact h3

/-! ### All protocols -/

theorem Kept.mono {ks ks' : List Bytes} {a b : Attrs} (h : Kept ks a b) (hs : ∀ k ∈ ks, k ∈ ks') : Kept ks' a b :=
  ⟨fun k hk h1 h2 => h.other k (fun hc => hk (hs k hc)) h1 h2, h.err⟩

def httpKeys : List Bytes := httpQ ++ httpR
def mysqlKeys : List Bytes := mysqlQ ++ mysqlR
def dubboKeys : List Bytes := dubboQ ++ dubboR
def rocketmqKeys : List Bytes := rocketmqQ ++ rocketmqR
def kafkaKeys : List Bytes := kafkaQ ++ kafkaR
def dnsKeys : List Bytes := dnsQ ++ dnsR

/-- A request and its response, parsed by one protocol; `a` are the attributes of the record (network_analyzer.go:553-650).
The response, if there is one, is parsed with the attributes of the request (574), for DNS with new ones (618).  More is
allowed than the code does: a record is made only if the parsers accept. -/
inductive Parsed : List Bytes → Attrs → Prop
  | httpQ (cluster : Bytes → Bytes) (d : Bytes) (b : Bool) (m : Msg) (h : Http.parseRequest cluster d = .ok (b, m)) : Parsed httpKeys m.attrs
  | httpR (d : Bytes) (a : Attrs) (b : Bool) (m : Msg) (ha : Parsed httpKeys a) (h : Http.parseResponse d a = .ok (b, m)) : Parsed httpKeys m.attrs
  | mysqlQ (d : Bytes) (b : Bool) (m : Msg) (h : Mysql.parseRequest d = .ok (b, m)) : Parsed mysqlKeys m.attrs
  | mysqlR (d : Bytes) (a : Attrs) (b : Bool) (m : Msg) (ha : Parsed mysqlKeys a) (h : Mysql.parseResponse d a = .ok (b, m)) : Parsed mysqlKeys m.attrs
  | dubboQ (d : Bytes) (b : Bool) (m : Msg) (h : Dubbo.parseRequest d = .ok (b, m)) : Parsed dubboKeys m.attrs
  | dubboR (d : Bytes) (a : Attrs) (b : Bool) (m : Msg) (ha : Parsed dubboKeys a) (h : Dubbo.parseResponse d a = .ok (b, m)) : Parsed dubboKeys m.attrs
  | rocketmqQ (e : Rocketmq.Env) (d : Bytes) (b : Bool) (m : Msg) (h : Rocketmq.parseRequest e d = .ok (b, m)) : Parsed rocketmqKeys m.attrs
  | rocketmqR (e : Rocketmq.Env) (d : Bytes) (a : Attrs) (b : Bool) (m : Msg) (ha : Parsed rocketmqKeys a) (h : Rocketmq.parseResponse e d a = .ok (b, m)) : Parsed rocketmqKeys m.attrs
  | kafkaQ (d : Bytes) (b : Bool) (m : Msg) (h : Kafka.parseRequest d = .ok (b, m)) : Parsed kafkaKeys m.attrs
  | kafkaR (d : Bytes) (a : Attrs) (b : Bool) (m : Msg) (ha : Parsed kafkaKeys a) (h : Kafka.parseResponse d a = .ok (b, m)) : Parsed kafkaKeys m.attrs
  | redisQ (d : Bytes) (b : Bool) (m : Msg) (h : Redis.parseRequest d = some (.ok (b, m))) : Parsed redisKeys m.attrs
  | redisR (d : Bytes) (a : Attrs) (b : Bool) (m : Msg) (ha : Parsed redisKeys a) (h : Redis.parseResponse d a = some (.ok (b, m))) : Parsed redisKeys m.attrs
  | dnsQ (d : Bytes) (off : Nat) (x : Dns.DnsAttrs) (h : Dns.parseRequest d off = .ok x) : Parsed dnsKeys (dnsRequestAttrs ⟨d, off, []⟩ x).attrs
  | dnsR (i3 : Bool) (d : Bytes) (off : Nat) (x : Dns.DnsAttrs) (h : Dns.parseResponse i3 d off = .ok x) :
      Parsed dnsKeys (dnsResponseAttrs ⟨d, off, []⟩ x).attrs

theorem http_request_keeps (cluster : Bytes → Bytes) (d : Bytes) : Keeps httpQ ⟨d, 0, []⟩ (Http.parseRequest cluster d) :=
  single_keeps (http_request_writes cluster) (by intro l hl; simp [Http.requestTree] at hl) _
theorem http_response_keeps (d : Bytes) (a : Attrs) : Keeps httpR ⟨d, 0, a⟩ (Http.parseResponse d a) :=
  single_keeps http_response_writes (by intro l hl; simp [Http.responseTree] at hl) _
theorem mysql_request_keeps (d : Bytes) : Keeps mysqlQ ⟨d, 0, []⟩ (Mysql.parseRequest d) :=
  single_keeps (goOn_writes _) mysql_request_writes _
theorem mysql_response_keeps (d : Bytes) (a : Attrs) : Keeps mysqlR ⟨d, 0, a⟩ (Mysql.parseResponse d a) :=
  single_keeps (goOn_writes _) mysql_response_writes _
theorem dubbo_request_keeps (d : Bytes) : Keeps dubboQ ⟨d, 0, []⟩ (Dubbo.parseRequest d) :=
  single_keeps dubbo_request_writes (by intro l hl; simp [Dubbo.requestTree] at hl) _
theorem dubbo_response_keeps (d : Bytes) (a : Attrs) : Keeps dubboR ⟨d, 0, a⟩ (Dubbo.parseResponse d a) :=
  single_keeps dubbo_response_writes (by intro l hl; simp [Dubbo.responseTree] at hl) _
theorem rocketmq_request_keeps (e : Rocketmq.Env) (d : Bytes) : Keeps rocketmqQ ⟨d, 0, []⟩ (Rocketmq.parseRequest e d) :=
  single_keeps (rocketmq_request_writes e) (by intro l hl; simp [Rocketmq.requestTree] at hl) _
theorem rocketmq_response_keeps (e : Rocketmq.Env) (d : Bytes) (a : Attrs) : Keeps rocketmqR ⟨d, 0, a⟩ (Rocketmq.parseResponse e d a) :=
  single_keeps (rocketmq_response_writes e) (by intro l hl; simp [Rocketmq.responseTree] at hl) _
theorem kafka_request_keeps (d : Bytes) : Keeps kafkaQ ⟨d, 0, []⟩ (Kafka.parseRequest d) :=
  single_keeps kafka_request_root kafka_request_writes _
theorem kafka_response_keeps (d : Bytes) (a : Attrs) : Keeps kafkaR ⟨d, 0, a⟩ (Kafka.parseResponse d a) :=
  single_keeps kafka_response_root kafka_response_writes _
theorem redis_request_keeps (d : Bytes) (r) (h : Redis.parseRequest d = some r) : Keeps redisKeys ⟨d, 0, []⟩ r :=
  frames_keep (t := Redis.requestTree) (fun _ => Keeps.ok (Kept.refl _ _)) redis_request_writes _ _ _ h
theorem redis_response_keeps (d : Bytes) (a : Attrs) (r) (h : Redis.parseResponse d a = some r) : Keeps redisKeys ⟨d, 0, a⟩ r :=
  frames_keep (t := Redis.responseTree) (fun _ => Keeps.ok (Kept.refl _ _)) redis_response_writes _ _ _ h

/-- C90: for all payloads, an exchange parsed by one protocol has only labels of that protocol; the two error labels are
absent or say protocol error, both. -/
theorem parsed_kept (ks : List Bytes) (a : Attrs) (h : Parsed ks a) : Kept ks [] a := by
  induction h with
  | httpQ cluster d b m h => exact Kept.mono (http_request_keeps cluster d _ _ h) (fun _ => List.mem_append_left _)
  | httpR d a b m _ h ih => exact ih.trans (Kept.mono (http_response_keeps d a _ _ h) (fun _ => List.mem_append_right _))
  | mysqlQ d b m h => exact Kept.mono (mysql_request_keeps d _ _ h) (fun _ => List.mem_append_left _)
  | mysqlR d a b m _ h ih => exact ih.trans (Kept.mono (mysql_response_keeps d a _ _ h) (fun _ => List.mem_append_right _))
  | dubboQ d b m h => exact Kept.mono (dubbo_request_keeps d _ _ h) (fun _ => List.mem_append_left _)
  | dubboR d a b m _ h ih => exact ih.trans (Kept.mono (dubbo_response_keeps d a _ _ h) (fun _ => List.mem_append_right _))
  | rocketmqQ e d b m h => exact Kept.mono (rocketmq_request_keeps e d _ _ h) (fun _ => List.mem_append_left _)
  | rocketmqR e d a b m _ h ih => exact ih.trans (Kept.mono (rocketmq_response_keeps e d a _ _ h) (fun _ => List.mem_append_right _))
  | kafkaQ d b m h => exact Kept.mono (kafka_request_keeps d _ _ h) (fun _ => List.mem_append_left _)
  | kafkaR d a b m _ h ih => exact ih.trans (Kept.mono (kafka_response_keeps d a _ _ h) (fun _ => List.mem_append_right _))
  | redisQ d b m h => exact redis_request_keeps d _ h _ _ rfl
  | redisR d a b m _ h ih => exact ih.trans (redis_response_keeps d a _ h _ _ rfl)
  | dnsQ d off x h => exact Kept.mono (dns_request_kept ⟨d, off, []⟩ x) (fun _ => List.mem_append_left _)
  | dnsR i3 d off x h => exact Kept.mono (dns_response_kept ⟨d, off, []⟩ x) (fun _ => List.mem_append_right _)

/-- A byte string as a Go string: one character below 256 for each byte. -/
abbrev dec (b : Bytes) : String := Proc.Aggregate.dec b

theorem bs_dec (b : Bytes) : bs (dec b) = b := by
  have h : ∀ x : UInt8, UInt8.ofNat (Char.ofNat x.toNat).toNat = x := by
    intro x
    have hx : x.toNat < 256 := x.toNat_lt
    have hv : x.toNat.isValidChar := Or.inl (by omega)
    rw [show (Char.ofNat x.toNat).toNat = x.toNat from by
      unfold Char.ofNat
      rw [dif_pos hv]
      rfl]
    exact UInt8.ofNat_toNat
  simp only [bs, dec, Proc.Aggregate.dec, String.toList_ofList, List.map_map]
  rw [List.map_congr_left (g := id)]
  · simp
  · intro x _; exact h x

/-- The value in the record. -/
def valOf : AttrVal → Val
  | .str s => .str (dec s)
  | .int n => .int n
  | .bool b => .bool b

/-- The attributes as the record reads them. -/
def vmapOf (a : Attrs) : VMap := fun k => if dec (bs k) = k then (AMap.get a (bs k)).map valOf else none

theorem dec_of {k : String} (h : (k.toList.all (fun c => decide (c.toNat < 256))) = true) : dec (bs k) = k := by
  have h' : ∀ c ∈ k.toList, Char.ofNat (UInt8.ofNat c.toNat).toNat = c := by
    intro c hc
    have := of_decide_eq_true (List.all_eq_true.1 h c hc)
    have e : (UInt8.ofNat c.toNat).toNat = c.toNat := by simp [UInt8.toNat_ofNat']; omega
    rw [e, Char.ofNat_toNat]
  simp only [bs, dec, Proc.Aggregate.dec, List.map_map]
  rw [List.map_congr_left (f := (fun x : UInt8 => Char.ofNat x.toNat) ∘ fun c : Char => UInt8.ofNat c.toNat) (g := id) (fun c hc => h' c hc)]
  simp

theorem vmapOf_dec (a : Attrs) (k : Bytes) : vmapOf a (dec k) = (AMap.get a k).map valOf := by
  unfold vmapOf
  rw [bs_dec, if_pos rfl]

theorem parsed_keys (ks : List Bytes) (a : Attrs) (h : Parsed ks a) :
    ks ∈ [httpKeys, mysqlKeys, dubboKeys, rocketmqKeys, kafkaKeys, redisKeys, dnsKeys] := by
  cases h <;> simp

/-- C90: the condition of `record_labels` holds of every parsed exchange. -/
theorem parsed_attrs (ks : List Bytes) (a : Attrs) (h : Parsed ks a) : Net.Record.ParserAttrs (vmapOf a) := by
  have hk := parsed_kept ks a h
  have hks := parsed_keys ks a h
  refine ⟨fun k t hkt h1 h2 => ?_, ?_⟩
  · have hall : ∀ ks ∈ [httpKeys, mysqlKeys, dubboKeys, rocketmqKeys, kafkaKeys, redisKeys, dnsKeys], ∀ p ∈ Net.Record.baseTy,
        p.1 ≠ "is_error" → p.1 ≠ "error_type" → bs p.1 ∉ ks ∧ bs p.1 ≠ kIsError ∧ bs p.1 ≠ kErrorType := by
      decide +kernel
    obtain ⟨g1, g2, g3⟩ := hall ks hks (k, t) hkt h1 h2
    unfold vmapOf
    split
    · rw [hk.other (bs k) g1 g2 g3]; rfl
    · rfl
  · have d1 : dec (bs "is_error") = "is_error" := dec_of (by decide)
    have d2 : dec (bs "error_type") = "error_type" := dec_of (by decide)
    simp only [vmapOf, d1, d2, if_true]
    rcases hk.err with ⟨e1, e2⟩ | ⟨e1, e2⟩
    · left
      rw [show bs "is_error" = kIsError from rfl, show bs "error_type" = kErrorType from rfl, e1, e2]
      exact ⟨rfl, rfl⟩
    · right
      rw [show bs "is_error" = kIsError from rfl, show bs "error_type" = kErrorType from rfl, e1, e2]
      exact ⟨rfl, rfl⟩

/-- C90: the addresses of a DNS response can be read back from their text. -/
theorem joined_ips_split (ips : List Bytes) (hne : ips ≠ []) (h : ∀ a ∈ ips, (44 : UInt8) ∉ a) : Ip.split 44 (joinIps ips) = ips := by
  induction ips with
  | nil => exact absurd rfl hne
  | cons a r ih =>
    have ha : ∀ x ∈ a, x ≠ (44 : UInt8) := fun x hx e => h a (by simp) (e ▸ hx)
    cases r with
    | nil => exact Ip.split_last a ha
    | cons b r =>
      have : joinIps (a :: b :: r) = a ++ 44 :: joinIps (b :: r) := by simp [joinIps, show bs "," = [44] from rfl]
      rw [this, Ip.split_piece _ _ ha, ih (by simp) (fun x hx => h x (by simp [hx]))]

example : Ip.split 44 (joinIps [bs "10.0.0.1", bs "10.0.0.2"]) = [bs "10.0.0.1", bs "10.0.0.2"] :=
  joined_ips_split _ (by simp) (by decide)

end Kindling.Flow
