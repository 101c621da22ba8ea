import Verif.Flow.Labels
/-
From the bytes on the wire to the attributes of the exported span: parsers, record and adapter together.
-/
namespace Kindling.Flow
open Kindling Kindling.Agg Kindling.Proto Kindling.Model.Attr Kindling.Export.Adapter Kindling.Proc.Aggregate
open Kindling.Export.Labels (Dict VT entryVal itoa)
open Kindling.Net.Record (Info recordLabels Pooled baseTy)

/-- The spans made of `l` show the attribute `k` with exactly the value `v`, with every choice of constant attributes and after
whatever earlier conversions. -/
def SpanShows (p : Proto) (l : Agg.Labels) (k : String) (v : Export.Labels.Val) : Prop :=
  ∀ consts, Fresh traceToSpan p consts → ∀ vals, vals.map (·.1) = traceToSpan.vkeys → ∀ pool, PoolList traceToSpan consts p pool →
    ∀ w, (bs k, w) ∈ convertC traceToSpan consts (labOf l) vals pool ↔ w = v

theorem span_entry {protocol : String} {a : Attrs} {l : Agg.Labels} (h : Exchange protocol a l) (p : Proto) (hp : (protocol, p) ∈ protocols)
    (hne : p ≠ .redis) (k : String) (key : Bytes) (vt : VT) (hd : (⟨bs k, key, vt⟩ : Dict) ∈ dictOf traceToSpan p)
    (ho : own ⟨bs k, key, vt⟩ = true) : SpanShows p l k (entryVal (attrLab a) ⟨bs k, key, vt⟩) := by
  intro consts hf vals hv pool hpool w
  exact exported_single h traceToSpan p (protocols_of _ _ hp) (Or.inr ⟨rfl, hne⟩) consts hf vals hv pool hpool _ hd ho w

/-- C90: the labels of an exchange tell a protocol error from a missing response by the type: it is 3 exactly if the parser
wrote `is_error`, and such an exchange is an error. -/
theorem error_label {protocol : String} {a : Attrs} {l : Agg.Labels} (h : Exchange protocol a l) :
    (l.getInt "error_type" = 3 ↔ AMap.get a (bs "is_error") = some (.bool true)) ∧
    (AMap.get a (bs "is_error") = some (.bool true) → l.getBool "is_error" = true) := by
  obtain ⟨ks, hp⟩ := h.parsed
  obtain ⟨text, limit, lab, x, r, hpool, hxa, hxp, hq, hr, hreach⟩ := h.record
  obtain ⟨ht, hz⟩ := Net.Record.pooled_zero hpool
  have hx : Net.Record.ParserAttrs x.attrs := hxa ▸ parsed_attrs ks a hp
  obtain ⟨r', h0, _, _, _, _, _, _, _, _, _, _, _, _, _, g13, g14, _⟩ :=
    Net.Record.record_labels text limit lab ht x hx hq
  rw [hr] at h0
  cases h0
  have h1 := hreach "is_error" (by decide)
  have h2 := hreach "error_type" (by decide)
  rw [g13] at h1
  rw [g14] at h2
  simp only [Agg.Labels.getInt, Agg.Labels.getBool, h1, h2, Option.map_some, aval]
  have hb : (x.attrs "is_error").isSome = true ↔ AMap.get a (bs "is_error") = some (.bool true) := by
    have hv := hx.both
    rw [hxa] at hv ⊢
    have hd : vmapOf a "is_error" = (AMap.get a (bs "is_error")).map valOf := by
      rw [← vmapOf_dec]; congr 1
    rw [hd] at hv ⊢
    rcases hv with ⟨e, _⟩ | ⟨e, _⟩
    · rw [Option.map_eq_none_iff] at e
      simp [e]
    · cases hg : AMap.get a (bs "is_error") with
      | none => rw [hg] at e; cases e
      | some v => rw [hg] at e; cases v <;> simp [valOf] at e ⊢; exact e
  rw [← hb]
  unfold Net.Record.protocolSaysError
  cases (x.attrs "is_error").isSome <;> cases x.response <;> simp

/-- The trace of an exchange: the one named in the request, otherwise the one named in the response. -/
def traceSeen (q r : Bytes × Bytes) : Bytes × Bytes :=
  if q.1 ≠ [] ∧ q.2 ≠ [] then q else if r.1 ≠ [] ∧ r.2 ≠ [] then r else ([], [])

/-- C90, HTTP: the span of every exchange shows the method and the path of the request, the trace its header fields carry (or
else those of the response), and the status of the response; it is a protocol error exactly from status 400 on. -/
theorem http_span (cluster : Bytes → Bytes) (method url version : Bytes) (fs : List Http.Field) (body : Bytes) (hm : method ∈ Http.rfcMethods)
    (hu : (32 : UInt8) ∉ url) (hu2 : (13 : UInt8) ∉ url) (hv : (13 : UInt8) ∉ version) (hv2 : 8 ≤ version.length) (hc : ∀ f ∈ fs, f.Clean)
    (version' : Bytes) (hv' : version' ∈ Http.rfcVersions) (s : Nat) (h1 : 100 ≤ s) (h2 : s ≤ 999) (reason : Bytes) (hreason : (13 : UInt8) ∉ reason)
    (fs' : List Http.Field) (body' : Bytes) (hc' : ∀ f ∈ fs', f.Clean) :
    ∃ m m' t t', Http.parseRequest cluster (method ++ 32 :: (url ++ 32 :: (version ++ (Redis.crlf ++ (Http.encFields fs ++ (Redis.crlf ++ body)))))) = .ok (true, m) ∧
      Http.parseResponse (version' ++ 32 :: (Dec.digits s ++ 32 :: (reason ++ (Redis.crlf ++ (Http.encFields fs' ++ (Redis.crlf ++ body')))))) m.attrs = .ok (true, m') ∧
      (∀ k, AMap.get t k = Http.lookupLast fs k) ∧ (∀ k, AMap.get t' k = Http.lookupLast fs' k) ∧
      ∀ l, Exchange "http" m'.attrs l →
        SpanShows .http l "http.method" (.str method) ∧ SpanShows .http l "http.endpoint" (.str (Text.formatUtf8 url)) ∧
        SpanShows .http l "http.status_code" (.int s) ∧
        SpanShows .http l "http.trace_type" (.str (traceSeen (Trace.parseTraceHeader t) (Trace.parseTraceHeader t')).1) ∧
        SpanShows .http l "http.trace_id" (.str (traceSeen (Trace.parseTraceHeader t) (Trace.parseTraceHeader t')).2) ∧
        (l.getInt "error_type" = 3 ↔ 400 ≤ s) := by
  have hml : 3 ≤ method.length := by
    have : ∀ m ∈ Http.rfcMethods, 3 ≤ m.length := by decide +kernel
    exact this method hm
  obtain ⟨m, t, q1, q2, q3, q4⟩ := Http.http_request_trace_partial cluster method url version fs body hm hu hu2 hv hv2 hc
  obtain ⟨m0, e1, em, eu, e2, hn, _⟩ := Http.http_request_parsed cluster method url (version ++ (Redis.crlf ++ (Http.encFields fs ++ (Redis.crlf ++ body)))) hm hu
    (by simp [Redis.crlf]; omega)
  rw [q1] at e1
  cases e1
  obtain ⟨m', t', r1, r2, r3, r4, r5⟩ := Http.http_response_trace version' hv' s h1 h2 reason hreason fs' body' hc' m.attrs
  obtain ⟨m0', e3, e4, e5, _⟩ := Http.http_response_parsed version' hv' s h1 h2 (reason ++ (Redis.crlf ++ (Http.encFields fs' ++ (Redis.crlf ++ body'))))
    (by simp [Redis.crlf]) m.attrs
  rw [r1] at e3
  cases e3
  refine ⟨m, m', t, t', q1, r1, q2, r2, fun l hl => ?_⟩
  have hk := http_response_keeps _ _ _ _ r1
  have hP : ("http", Proto.http) ∈ protocols := by simp [protocols]
  have s1 := span_entry hl .http hP (by decide) "http.method" (bs "http_method") .string (by decide +kernel) (by decide +kernel)
  have s2 := span_entry hl .http hP (by decide) "http.endpoint" (bs "http_url") .string (by decide +kernel) (by decide +kernel)
  have s3 := span_entry hl .http hP (by decide) "http.status_code" (bs "http_status_code") .int64 (by decide +kernel) (by decide +kernel)
  have s4 := span_entry hl .http hP (by decide) "http.trace_type" (bs "trace_type") .string (by decide +kernel) (by decide +kernel)
  have s5 := span_entry hl .http hP (by decide) "http.trace_id" (bs "trace_id") .string (by decide +kernel) (by decide +kernel)
  simp only [entryVal, attrLab] at s1 s2 s3 s4 s5
  rw [hk.other _ (by decide +kernel) (by decide +kernel) (by decide +kernel), em] at s1
  rw [hk.other _ (by decide +kernel) (by decide +kernel) (by decide +kernel), eu] at s2
  rw [e4] at s3
  refine ⟨s1, s2, s3, ?_⟩
  have herr : (l.getInt "error_type" = 3 ↔ 400 ≤ s) := by
    rw [(error_label hl).1, e5, hn]
    split <;> simp_all
  rw [← and_assoc]
  refine ⟨?_, herr⟩
  unfold traceSeen
  by_cases p : (Trace.parseTraceHeader t).1 ≠ [] ∧ (Trace.parseTraceHeader t).2 ≠ []
  · rw [if_pos p]
    obtain ⟨a1, a2⟩ := q3 p.1 p.2
    obtain ⟨b1, b2⟩ := r3 (by rw [a1]; simp)
    rw [b1, a1] at s4
    rw [b2, a2] at s5
    exact ⟨s4, s5⟩
  · rw [if_neg p]
    obtain ⟨a1, a2⟩ := q4 (by
      by_cases h : (Trace.parseTraceHeader t).1 = []
      · exact Or.inl h
      · exact Or.inr (Decidable.by_contra fun h' => p ⟨h, h'⟩))
    by_cases p' : (Trace.parseTraceHeader t').1 ≠ [] ∧ (Trace.parseTraceHeader t').2 ≠ []
    · rw [if_pos p']
      obtain ⟨b1, b2⟩ := r4 a1 p'.1 p'.2
      rw [b1] at s4
      rw [b2] at s5
      exact ⟨s4, s5⟩
    · rw [if_neg p']
      obtain ⟨b1, b2⟩ := r5 a1 (by
        by_cases h : (Trace.parseTraceHeader t').1 = []
        · exact Or.inl h
        · exact Or.inr (Decidable.by_contra fun h' => p' ⟨h, h'⟩))
      rw [b1] at s4
      rw [b2, a2] at s5
      exact ⟨s4, s5⟩

/-- C90, MySQL: the statement, the code and the text of an error packet; a protocol error exactly if the code is not 0. -/
theorem mysql_span (h : Bytes) (hh : h.length = 4) (c : UInt8) (hc : c = 22 ∨ c = 3) (pre sql : Bytes)
    (hpre : pre = [] ∨ (c = 3 ∧ pre = [0, 1])) (hs : Mysql.Statement sql)
    (h' : Bytes) (hh' : h'.length = 4) (code : Nat) (hcode : code < 65536) (rest : Bytes) (hr : rest ≠ []) :
    ∃ m m', Mysql.parseRequest (h ++ c :: (pre ++ sql)) = .ok (true, m) ∧
      Mysql.parseResponse (h' ++ 0xff :: UInt8.ofNat (code % 256) :: UInt8.ofNat (code / 256) :: rest) m.attrs = .ok (true, m') ∧
      ∀ l, Exchange "mysql" m'.attrs l →
        SpanShows .mysql l "mysql.sql" (.str (Text.formatUtf8 sql)) ∧ SpanShows .mysql l "mysql.error_code" (.int code) ∧
        SpanShows .mysql l "mysql.error_msg" (.str (Text.formatUtf8 (Mysql.reported rest))) ∧ (l.getInt "error_type" = 3 ↔ code ≠ 0) := by
  obtain ⟨m, e1, q1, _, hn, _⟩ := Mysql.mysql_statement_parsed h hh c hc pre sql hpre hs
  obtain ⟨m', e3, e4, e5, _, e6⟩ := Mysql.mysql_error_code_partial h' hh' code hcode rest hr m.attrs
  refine ⟨m, m', e1, e3, fun l hl => ?_⟩
  have hk := mysql_response_keeps _ _ _ _ e3
  have hP : ("mysql", Proto.mysql) ∈ protocols := by simp [protocols]
  have s1 := span_entry hl .mysql hP (by decide) "mysql.sql" (bs "sql") .string (by decide +kernel) (by decide +kernel)
  have s2 := span_entry hl .mysql hP (by decide) "mysql.error_code" (bs "sql_error_code") .int64 (by decide +kernel) (by decide +kernel)
  have s3 := span_entry hl .mysql hP (by decide) "mysql.error_msg" (bs "sql_error_msg") .string (by decide +kernel) (by decide +kernel)
  simp only [entryVal, attrLab] at s1 s2 s3
  rw [hk.other _ (by decide +kernel) (by decide +kernel) (by decide +kernel), q1] at s1
  rw [e4] at s2
  rw [e6] at s3
  refine ⟨s1, s2, s3, ?_⟩
  rw [(error_label hl).1, e5, hn]
  split <;> simp_all

/-- C90, Dubbo: the status of the response, which the metrics lose; a protocol error exactly above 20. -/
theorem dubbo_span (flags status : UInt8) (hrest v service sv method rest : Bytes) (h12 : hrest.length = 12)
    (hreq : flags &&& 0x80 ≠ 0) (htwo : flags &&& 0x40 ≠ 0) (hev : flags &&& 0x20 = 0) (enc : Bytes → Bytes)
    (henc : (flags &&& 0x1f = 2 ∧ enc = Dubbo.hessian ∧ ∀ s ∈ [v, service, sv, method], s.length < 1024) ∨
      (flags &&& 0x1f = 6 ∧ enc = Dubbo.json ∧ ∀ s ∈ [v, service, sv, method], (10 : UInt8) ∉ s))
    (flags' status' : UInt8) (hrest' body : Bytes) (h12' : hrest'.length = 12) (hres : flags' &&& 0x80 = 0) (hser : flags' &&& 0x1f ≠ 0)
    (hev' : flags' &&& 0x20 = 0) :
    ∃ m m', Dubbo.parseRequest (Dubbo.header flags status hrest ++ (enc v ++ (enc service ++ (enc sv ++ (enc method ++ rest))))) = .ok (true, m) ∧
      Dubbo.parseResponse (Dubbo.header flags' status' hrest' ++ body) m.attrs = .ok (true, m') ∧
      ∀ l, Exchange "dubbo" m'.attrs l → SpanShows .dubbo l "dubbo.error_code" (.int status'.toNat) ∧
        (l.getInt "error_type" = 3 ↔ 20 < status'.toNat) := by
  obtain ⟨m, e1, _, hn, _⟩ := Dubbo.dubbo_request_parsed flags status hrest v service sv method rest h12 hreq htwo hev enc henc
  obtain ⟨m', e3, e4, e5, _⟩ := Dubbo.dubbo_response_parsed flags' status' hrest' body h12' hres hser m.attrs
  refine ⟨m, m', e1, e3, fun l hl => ?_⟩
  have s1 := span_entry hl .dubbo (by simp [protocols]) (by decide) "dubbo.error_code" (bs "dubbo_error_code") .int64 (by decide +kernel) (by decide +kernel)
  simp only [entryVal, attrLab, e4, if_pos hev'] at s1
  refine ⟨s1, ?_⟩
  rw [(error_label hl).1, e5, hn]
  simp only [hev', true_and]
  split <;> simp_all

/-- C90, RocketMQ: the name of the operation, and the text of the error if the code is above 0. -/
theorem rocketmq_span (e : Rocketmq.Env) {d d' : Bytes} {code code' oid : Int} {remark remark' : Bytes} {topic topic' : Option Bytes}
    (h : Rocketmq.Says e d code oid remark topic) (h' : Rocketmq.Says e d' code' oid remark' topic') :
    ∃ m m', Rocketmq.parseRequest e d = .ok (true, m) ∧ Rocketmq.parseResponse e d' m.attrs = .ok (true, m') ∧
      ∀ l, Exchange "rocketmq" m'.attrs l → SpanShows .rocketmq l "rocketmq.request_msg" (.str (e.requestMsg code)) ∧
        SpanShows .rocketmq l "rocketmq.error_msg" (.str (if code' > 0 then Rocketmq.textOf e code' remark' else [])) ∧
        (l.getInt "error_type" = 3 ↔ code' > 0) := by
  obtain ⟨m, e1, e0, q1, _, hn, hn', _⟩ := Rocketmq.rocketmq_request_parsed_partial e h
  obtain ⟨m', e3, _, e5, _, e6⟩ := Rocketmq.rocketmq_response_parsed e h' m.attrs e0
  refine ⟨m, m', e1, e3, fun l hl => ?_⟩
  have hk := rocketmq_response_keeps _ _ _ _ _ e3
  have hP : ("rocketmq", Proto.rocketmq) ∈ protocols := by simp [protocols]
  have s1 := span_entry hl .rocketmq hP (by decide) "rocketmq.request_msg" (bs "rocketmq_request_msg") .string (by decide +kernel) (by decide +kernel)
  have s2 := span_entry hl .rocketmq hP (by decide) "rocketmq.error_msg" (bs "rocketmq_error_msg") .string (by decide +kernel) (by decide +kernel)
  simp only [entryVal, attrLab] at s1 s2
  rw [hk.other _ (by decide +kernel) (by decide +kernel) (by decide +kernel), q1] at s1
  rw [e6, hn'] at s2
  refine ⟨s1, ?_, ?_⟩
  · split <;> rename_i hp
    · rw [if_pos hp] at s2; exact s2
    · rw [if_neg hp] at s2; exact s2
  · rw [(error_label hl).1, e5, hn]
    split <;> simp_all

/-- C90, DNS: the first name asked for and the response code; a protocol error exactly if the code is neither 0 nor an ignored 3. -/
theorem dns_span (i3 : Bool) (hd : Dns.Header) (q : Dns.Question) (hf : hd.Fits) (hq : Dns.Legal q.labels) (h1 : hd.nq = 1) (pre post : Bytes) :
    ∃ x, Dns.parseResponse i3 (pre ++ hd.enc ++ q.enc ++ post) pre.length = .ok x ∧
      ∀ l, Exchange "dns" (dnsResponseAttrs ⟨pre ++ hd.enc ++ q.enc ++ post, pre.length, []⟩ x).attrs l →
        SpanShows .dns l "dns.domain" (.str (Dns.nameText q.labels)) ∧ SpanShows .dns l "dns.rcode" (.str (Dec.digits hd.rcode)) ∧
        (l.getInt "error_type" = 3 ↔ hd.rcode ≠ 0 ∧ ¬ (hd.rcode = 3 ∧ i3 = true)) := by
  obtain ⟨x, e1, _, e2, e3, e4⟩ := Dns.dns_response_parsed i3 hd q hf hq h1 pre post
  refine ⟨x, e1, fun l hl => ?_⟩
  have hP : ("dns", Proto.dns) ∈ protocols := by simp [protocols]
  obtain ⟨g1, g2, g3⟩ := dnsResponse_get ⟨pre ++ hd.enc ++ q.enc ++ post, pre.length, []⟩ x
  have s1 := span_entry hl .dns hP (by decide) "dns.domain" (bs "dns_domain") .string (by decide +kernel) (by decide +kernel)
  have s2 := span_entry hl .dns hP (by decide) "dns.rcode" (bs "dns_rcode") .fromInt (by decide +kernel) (by decide +kernel)
  simp only [entryVal, attrLab] at s1 s2
  rw [show bs "dns_domain" = kDomain from rfl, g1, e2] at s1
  rw [show bs "dns_rcode" = kRcode from rfl, g2, e3] at s2
  simp only [Option.getD_some] at s2
  rw [itoa_nat] at s2
  refine ⟨s1, s2, ?_⟩
  rw [(error_label hl).1, show bs "is_error" = kIsError from rfl, g3 rfl, e4]

/-- A request with a Zipkin header answered with 404. -/
example : ∃ m m' t t', Http.parseRequest id (bs "GET /a HTTP/1.1\r\nX-B3-TraceId: 7\r\n\r\n") = .ok (true, m) ∧
    Http.parseResponse (bs "HTTP/1.1 404 Not Found\r\n\r\n") m.attrs = .ok (true, m') ∧
    (∀ k, AMap.get t k = Http.lookupLast [⟨bs "X-B3-TraceId", bs "7"⟩] k) ∧ (∀ k, AMap.get t' k = Http.lookupLast [] k) ∧
    ∀ l, Exchange "http" m'.attrs l →
      SpanShows .http l "http.method" (.str (bs "GET")) ∧ SpanShows .http l "http.endpoint" (.str (Text.formatUtf8 (bs "/a"))) ∧
      SpanShows .http l "http.status_code" (.int (404 : Nat)) ∧
      SpanShows .http l "http.trace_type" (.str (traceSeen (Trace.parseTraceHeader t) (Trace.parseTraceHeader t')).1) ∧
      SpanShows .http l "http.trace_id" (.str (traceSeen (Trace.parseTraceHeader t) (Trace.parseTraceHeader t')).2) ∧
      (l.getInt "error_type" = 3 ↔ 400 ≤ 404) := by
  have h := http_span id (bs "GET") (bs "/a") (bs "HTTP/1.1") [⟨bs "X-B3-TraceId", bs "7"⟩] [] (by decide +kernel) (by decide +kernel) (by decide +kernel)
    (by decide +kernel) (by decide +kernel) (by intro f hf; simp only [List.mem_singleton] at hf; subst hf; unfold Http.Field.Clean; decide +kernel)
    (bs "HTTP/1.1") (by decide +kernel) 404 (by decide) (by decide) (bs "Not Found") (by decide +kernel) [] [] (by simp)
  have e1 : bs "GET" ++ 32 :: (bs "/a" ++ 32 :: (bs "HTTP/1.1" ++ (Redis.crlf ++ (Http.encFields [⟨bs "X-B3-TraceId", bs "7"⟩] ++ (Redis.crlf ++ []))))) =
      bs "GET /a HTTP/1.1\r\nX-B3-TraceId: 7\r\n\r\n" := by decide +kernel
  have e2 : bs "HTTP/1.1" ++ 32 :: (Dec.digits 404 ++ 32 :: (bs "Not Found" ++ (Redis.crlf ++ (Http.encFields [] ++ (Redis.crlf ++ []))))) =
      bs "HTTP/1.1 404 Not Found\r\n\r\n" := by decide +kernel
  rw [e1, e2] at h
  exact h

end Kindling.Flow
