import Verif.Proto.RedisProps
import Verif.Tools.Trace
import Verif.Tools.Url
/-
Model of collector/pkg/component/analyzer/network/protocol/http.
Properties C22 (responses), C31 (trace headers of whole requests), C62 (requests), and the HTTP part of C21.
-/
namespace Kindling.Proto.Http
open Kindling Kindling.Agg Kindling.Proto Kindling.Trace
open Kindling.Proto.Redis (crlf readLine readEnd readRest line_cases)

/-! ## Attribute names, constlabels/protocols.go:3-41 -/

def kMethod : Bytes := bs "http_method"
def kUrl : Bytes := bs "http_url"
def kTraceType : Bytes := bs "trace_type"
def kTraceId : Bytes := bs "trace_id"
def kStatus : Bytes := bs "http_status_code"
def kContinue : Bytes := bs "http_continue"
def kContentKey : Bytes := bs "content_key"
def kIsError : Bytes := bs "is_error"
def kErrorType : Bytes := bs "error_type"

/-! ## Headers -/

/-- `unicode.ToLower` of an ASCII character.  `strings.ToLower` also changes other characters; they are left
alone here. -/
def lower (b : UInt8) : UInt8 := if 65 ≤ b ∧ b ≤ 90 then b + 32 else b

/-- http_parser.go:38-42: one header line; `none` ends the loop. -/
def headerLine (line : Bytes) : Option (Bytes × Bytes) :=
  match indexOf 58 line with
  | none => none
  | some p => if p > 0 ∧ (p : Int) < (line.length : Int) - 2 then some ((line.take p).map lower, line.drop (p + 2)) else none

/-- http_parser.go:33-43: the loop over the lines.  `n` bounds the number of lines; `headers_bound` shows that the
bound does not matter. -/
def headerLoop (d : Bytes) : Nat → Nat → AMap Bytes Bytes → AMap Bytes Bytes
  | 0, _, h => h
  | n + 1, start, h => match readUntilCRLF d start with
    | .ok (o, line) => match headerLine line with
      | some (k, v) => headerLoop d n o.toNat (AMap.set h k v)
      | none => h
    | _ => h

/-- http_parser.go:26-44 `parseHeaders`. -/
def parseHeaders (d : Bytes) : AMap Bytes Bytes :=
  match readUntilCRLF d 0 with
  | .ok (o, _) => headerLoop d (d.length + 1) o.toNat []
  | _ => []

/-- http_request.go:51-55, http_response.go:60-64: the two trace attributes. -/
def addTrace (m : Msg) : Msg :=
  let t := parseTraceHeader (parseHeaders m.data)
  if t.1.length > 0 ∧ t.2.length > 0 then (m.add kTraceType (.str t.1)).add kTraceId (.str t.2) else m

/-! ## Requests -/

/-- http_request.go:80-89 `httpMethodsList`. -/
def methods : List Bytes := [bs "GET", bs "POST", bs "PUT", bs "DELETE", bs "HEAD", bs "TRACE", bs "OPTIONS", bs "CONNECT"]

/-- http_request.go:13-17 `fastfailHttpRequest` (the slice panics if the offset lies beyond the payload). -/
def requestFastFail : FastFail := fun m => do
  let r ← slice m.data m.offset m.data.length
  pure (decide (r.length < 14))

/-- http_request.go:36-46: the method, `none` if the payload is rejected. -/
def chooseMethod (d : Bytes) (offset : Int) (method : Bytes) : Res (Option Bytes) :=
  if method ∈ methods then pure (some method)
  else do
    let b ← idx d (offset - 1)
    let c ← if b ≠ 32 then pure true else (idx d offset >>= fun c => pure (decide (c ≠ 47)))
    if c then pure none
    else if method = bs "ET" then pure (some (bs "GET"))
    else pure none

/-- http_request.go:59-64: the content key. -/
def contentKey (cluster : Bytes → Bytes) (url : Bytes) : Bytes := if (cluster url).length = 0 then bs "*" else cluster url

/-- http_request.go:32-67 `parseHttpRequest`; `cluster` is the clustering method. -/
def requestParse (cluster : Bytes → Bytes) : ParseFn := fun m => do
  let (offset, method) ← readUntilBlankWithLength m.data m.offset 8
  match ← chooseMethod m.data offset method with
  | none => pure ((false, true), m)
  | some method => do
    let (_, url) ← readUntilBlank m.data offset.toNat
    let m1 := addTrace m
    pure ((true, true), ((m1.add kMethod (.str method)).add kUrl (.str (Text.formatUtf8 url))).add kContentKey (.str (Text.formatUtf8 (contentKey cluster url))))

/-- http_parser.go:12. -/
def requestTree (cluster : Bytes → Bytes) : Tree := ⟨requestFastFail, requestParse cluster, []⟩

/-- The attributes of a request; `none` if the payload is not recognised. -/
def parseRequest (cluster : Bytes → Bytes) (d : Bytes) : Res (Bool × Msg) := (requestTree cluster).single ⟨d, 0, []⟩

/-! ## Responses -/

/-- http_response.go:77-80 `httpVersoinList`. -/
def versions : List Bytes := [bs "HTTP/1.0", bs "HTTP/1.1"]

/-- http_response.go:26-39 `fastfailHttpResponse`.  The function also moves the offset behind the version when it
lets the payload pass: that part is `responseParse`'s first step here. -/
def responseFastFail : FastFail := fun m => do
  let r ← slice m.data m.offset m.data.length
  if r.length < 14 then pure true
  else do
    let (offset, version) ← readUntilBlankWithLength m.data m.offset 9
    if version ∉ versions then pure true
    else do
      let b ← idx m.data (offset - 1)
      pure (decide (b ≠ 32))

/-- http_response.go:49-51: codes that are not three digits. -/
def clampStatus (c : Int) : Int := if c > 999 ∨ c < 99 then 0 else c

/-- http_response.go:53-73: the attributes. -/
def responseAttrs (m : Msg) (status : Int) : Msg :=
  let m1 := if status = 100 then m.add kContinue (.bool true) else m
  let m2 := if !m1.has kTraceType then addTrace m1 else m1
  let m3 := m2.add kStatus (.int status)
  if status ≥ 400 then (m3.add kIsError (.bool true)).add kErrorType (.int 3) else m3

/-- http_response.go:36, 41-75 `parseHttpResponse`. -/
def responseParse : ParseFn := fun m => do
  let (offset, _) ← readUntilBlankWithLength m.data m.offset 9
  let m := { m with offset := offset.toNat }
  let (_, code) ← readUntilBlankWithLength m.data m.offset 6
  let (c, ok) := Dec.parseInt 64 code
  if !ok then pure ((false, true), m)
  else pure ((true, true), responseAttrs m (clampStatus c))

/-- http_parser.go:13. -/
def responseTree : Tree := ⟨responseFastFail, responseParse, []⟩

/-- A response together with the attributes of its request. -/
def parseResponse (d : Bytes) (a : Attrs) : Res (Bool × Msg) := responseTree.single ⟨d, 0, a⟩

/-! ## Reading up to a blank -/

theorem findBlank_append {s t : Bytes} (h : (32 : UInt8) ∉ s) : findBlank (s ++ 32 :: t) = some s.length := by
  induction s with
  | nil => simp [findBlank]
  | cons b r ih =>
    have hb : b ≠ 32 := fun e => h (by simp [e])
    simp [findBlank, hb, ih (fun hr => h (by simp [hr]))]

theorem findBlank_none {s : Bytes} (h : (32 : UInt8) ∉ s) : findBlank s = none := by
  induction s with
  | nil => rfl
  | cons b r ih =>
    have hb : b ≠ 32 := fun e => h (by simp [e])
    simp [findBlank, hb, ih (fun hr => h (by simp [hr]))]

theorem readWord (pre s post : Bytes) (h : (32 : UInt8) ∉ s) (start : Nat) (hs : start = pre.length) :
    readUntilBlank (pre ++ (s ++ 32 :: post)) start = .ok (((pre.length + s.length + 1 : Nat) : Int), s) := by
  subst hs
  have hf : findBlank ((pre ++ (s ++ 32 :: post)).drop pre.length) = some s.length := by rw [List.drop_left, findBlank_append h]
  have hsl := slice_nat pre s (32 :: post)
  rw [List.append_assoc] at hsl
  generalize pre ++ (s ++ 32 :: post) = d at *
  simp only [readUntilBlank, hf]
  rw [show ((pre.length : Int) + (s.length : Nat)) = ((pre.length + s.length : Nat) : Int) by omega, hsl]
  simp

theorem readWordN (pre s post : Bytes) (n : Nat) (h : (32 : UInt8) ∉ s) (hn : s.length < n) (start : Nat) (hs : start = pre.length) :
    readUntilBlankWithLength (pre ++ (s ++ 32 :: post)) start n = .ok (((pre.length + s.length + 1 : Nat) : Int), s) := by
  subst hs
  have hsl := slice_nat pre s (32 :: post)
  rw [List.append_assoc] at hsl
  have hf : ∀ L, pre.length + s.length < L → findBlank (((pre ++ (s ++ 32 :: post)).take L).drop pre.length) = some s.length := by
    intro L hL
    obtain ⟨k, rfl⟩ : ∃ k, L = pre.length + (s.length + (k + 1)) := ⟨L - pre.length - s.length - 1, by omega⟩
    rw [List.take_length_add_append, List.drop_left, List.take_length_add_append, List.take_succ_cons, findBlank_append h]
  have hlen : (pre ++ (s ++ 32 :: post)).length = pre.length + s.length + post.length + 1 := by simp; omega
  generalize pre ++ (s ++ 32 :: post) = d at *
  simp only [readUntilBlankWithLength]
  rw [hf _ (by split <;> omega)]
  simp only
  rw [show ((pre.length : Int) + (s.length : Nat)) = ((pre.length + s.length : Nat) : Int) by omega, hsl]
  simp

theorem blank_cases (d : Bytes) (start fixed : Nat) (h : start ≤ d.length) :
    ∃ o : Nat, ∃ s, readUntilBlankWithLength d start fixed = .ok ((o : Int), s) ∧ start ≤ o ∧ o ≤ d.length ∧ o ≤ start + fixed ∧
      (start < d.length → 0 < fixed → start < o) := by
  simp only [readUntilBlankWithLength]
  have hL : start ≤ (if fixed + start < d.length then start + fixed else d.length) ∧
      (if fixed + start < d.length then start + fixed else d.length) ≤ d.length ∧
      (if fixed + start < d.length then start + fixed else d.length) ≤ start + fixed ∧
      (start < d.length → 0 < fixed → start < (if fixed + start < d.length then start + fixed else d.length)) := by split <;> omega
  generalize (if fixed + start < d.length then start + fixed else d.length) = L at hL
  split
  · rename_i j hj
    have hlt := findBlank_lt hj
    simp only [List.length_drop, List.length_take] at hlt
    rw [slice_ok (by omega)]
    exact ⟨start + j + 1, _, rfl, by omega, by omega, by omega, by omega⟩
  · rw [slice_ok (by omega)]
    exact ⟨L, _, rfl, by omega, by omega, by omega, by omega⟩

theorem blank_cases' (d : Bytes) (start : Nat) (h : start ≤ d.length) : ∃ o s, readUntilBlank d start = .ok (o, s) := by
  simp only [readUntilBlank]
  split
  · rename_i j hj
    have hlt := findBlank_lt hj
    simp only [List.length_drop] at hlt
    rw [slice_ok (by omega)]
    exact ⟨_, _, rfl⟩
  · rw [slice_ok (by omega)]
    exact ⟨_, _, rfl⟩

/-! ## No panics (C21) -/

theorem idx_some {d : Bytes} {i : Int} (h0 : 0 ≤ i) (h1 : i < d.length) : ∃ b, idx d i = .ok b := by
  obtain ⟨b, hb, _⟩ := idx_ok h0 h1
  exact ⟨b, hb⟩

/-- C21, HTTP: no payload makes either parser panic. -/
theorem http_never_panics (cluster : Bytes → Bytes) (d : Bytes) (a : Attrs) :
    (∃ r, parseRequest cluster d = .ok r) ∧ ∃ r, parseResponse d a = .ok r := by
  have hsl : slice d (0 : Nat) d.length = .ok ((d.drop 0).take d.length) := by rw [slice_ok (by omega)]; simp
  constructor
  · simp only [parseRequest, Tree.single, Tree.run, requestTree, requestFastFail, hsl, Res.bind_ok, Res.pure_eq]
    by_cases hd : d.length < 14
    · simp [hd]
    · obtain ⟨o, s, ho, h1, h2, h3, h4⟩ := blank_cases d 0 8 (by omega)
      have h4 := h4 (by omega) (by omega)
      simp only [List.drop_zero, List.take_length, hd, decide_false, Bool.false_eq_true, ↓reduceIte, requestParse, ho, Res.bind_ok]
      have hc : ∃ r, chooseMethod d o s = .ok r := by
        simp only [chooseMethod]
        split
        · exact ⟨_, rfl⟩
        · obtain ⟨b, hb⟩ := idx_some (d := d) (i := (o : Int) - 1) (by omega) (by omega)
          obtain ⟨c, hc⟩ := idx_some (d := d) (i := (o : Int)) (by omega) (by omega)
          simp only [hb, hc, Res.bind_ok]
          split
          · exact ⟨_, rfl⟩
          · simp only [Res.pure_eq, Res.bind_ok]
            split
            · exact ⟨_, rfl⟩
            · split <;> exact ⟨_, rfl⟩
      obtain ⟨r, hr⟩ := hc
      rw [hr]
      simp only [Res.bind_ok]
      cases r with
      | none => simp
      | some m =>
        obtain ⟨o', s', h'⟩ := blank_cases' d o (by omega)
        simp [h']
  · simp only [parseResponse, Tree.single, Tree.run, responseTree, responseFastFail, hsl, Res.bind_ok, Res.pure_eq]
    by_cases hd : d.length < 14
    · simp [hd]
    · obtain ⟨o, s, ho, h1, h2, h3, h4⟩ := blank_cases d 0 9 (by omega)
      have h4 := h4 (by omega) (by omega)
      simp only [List.drop_zero, List.take_length, hd, ↓reduceIte, ho, Res.bind_ok]
      split
      · simp
      · obtain ⟨b, hb⟩ := idx_some (d := d) (i := (o : Int) - 1) (by omega) (by omega)
        obtain ⟨o', s', ho', _⟩ := blank_cases d o 6 (by omega)
        simp only [hb, Res.bind_ok]
        split
        · simp
        · simp only [responseParse, ho, ho', Res.bind_ok, Int.toNat_natCast]
          cases (Dec.parseInt 64 s').2 <;> simp

/-! ## Headers -/

/-- More rounds than bytes do not change the headers. -/
theorem headers_bound (d : Bytes) (n : Nat) : ∀ start h, d.length < start + n → ∀ k, n ≤ k →
    headerLoop d k start h = headerLoop d n start h := by
  induction n with
  | zero =>
    intro start h hn k _
    cases k with
    | zero => rfl
    | succ k => simp [headerLoop, readEnd d start (by omega)]
  | succ n ih =>
    intro start h hn k hk
    obtain ⟨k, rfl⟩ : ∃ j, k = j + 1 := ⟨k - 1, by omega⟩
    simp only [headerLoop]
    rcases line_cases d start with he | ⟨o, s, ho, h1, h2⟩
    · simp [he]
    · simp only [ho]
      cases hl : headerLine s with
      | none => rfl
      | some kv =>
        have hs : start < o := by
          rcases Nat.lt_or_ge start o with h3 | h3
          · exact h3
          · exfalso
            have hso : start = o := by omega
            subst hso
            simp only [readUntilCRLF] at ho
            split at ho
            · cases ho
            · split at ho
              · rw [slice_ok (by omega)] at ho
                simp at ho; omega
              · split at ho
                · rw [slice_ok (by omega)] at ho
                  simp at ho; omega
                · rename_i j hj _
                  have := findCR_lt hj
                  simp only [List.length_drop] at this
                  obtain ⟨c, hc⟩ := idx_some (d := d) (i := ((start + j + 1 : Nat) : Int)) (by omega) (by omega)
                  rw [hc] at ho
                  simp only [Res.bind_ok] at ho
                  split at ho
                  · rw [slice_ok (by omega)] at ho
                    simp at ho; omega
                  · cases ho
        exact ih _ _ (by simp; omega) k (by omega)

/-- A header field. -/
structure Field where
  name : Bytes
  value : Bytes
deriving DecidableEq, Repr

def Field.line (f : Field) : Bytes := f.name ++ 58 :: 32 :: f.value

/-- Field name without colon, value not empty, neither contains a carriage return. -/
def Field.Clean (f : Field) : Prop := f.name ≠ [] ∧ (58 : UInt8) ∉ f.name ∧ (13 : UInt8) ∉ f.name ∧ f.value ≠ [] ∧ (13 : UInt8) ∉ f.value

def encFields (fs : List Field) : Bytes := (fs.map (fun f => f.line ++ crlf)).flatten

/-- The value of the last field of this name, letters compared without case. -/
def lookupLast : List Field → Bytes → Option Bytes
  | [], _ => none
  | f :: r, k => (lookupLast r k).or (if f.name.map lower = k then some f.value else none)

theorem indexOf_mid {s t : Bytes} (h : (58 : UInt8) ∉ s) : indexOf 58 (s ++ 58 :: t) = some s.length := by
  induction s with
  | nil => simp [indexOf]
  | cons b r ih =>
    have hb : b ≠ 58 := fun e => h (by simp [e])
    simp [indexOf, hb, ih (fun hr => h (by simp [hr]))]

theorem headerLine_field (f : Field) (h : f.Clean) : headerLine f.line = some (f.name.map lower, f.value) := by
  obtain ⟨h1, h2, _, h4, _⟩ := h
  have hn : 0 < f.name.length := by cases hf : f.name <;> simp_all
  have hv : 0 < f.value.length := by cases hf : f.value <;> simp_all
  have hi : indexOf 58 f.line = some f.name.length := indexOf_mid h2
  have hl : f.line.length = f.name.length + f.value.length + 2 := by simp [Field.line]; omega
  have ht : f.line.take f.name.length = f.name := by simp [Field.line]
  have hd : f.line.drop (f.name.length + 2) = f.value := by
    rw [Field.line, List.drop_append, List.drop_eq_nil_of_le (by omega)]
    simp [show f.name.length + 2 - f.name.length = 2 by omega]
  simp only [headerLine, hi]
  rw [if_pos (by omega), ht, hd]

theorem line_no_cr {f : Field} (h : f.Clean) : (13 : UInt8) ∉ f.line := by
  obtain ⟨_, _, h3, _, h5⟩ := h
  simp [Field.line, h3, h5]

/-- The loop over a list of fields followed by `rest`. -/
theorem loop_fields (fs : List Field) (hc : ∀ f ∈ fs, f.Clean) (rest : Bytes) : ∀ (pre : Bytes) (n : Nat) (h : AMap Bytes Bytes),
    headerLoop (pre ++ (encFields fs ++ rest)) (n + fs.length) pre.length h =
      headerLoop (pre ++ (encFields fs ++ rest)) n (pre ++ encFields fs).length (fs.foldl (fun h f => AMap.set h (f.name.map lower) f.value) h) := by
  induction fs with
  | nil => intro pre n h; simp [encFields]
  | cons f r ih =>
    intro pre n h
    have hf := hc f (by simp)
    have e : pre ++ (encFields (f :: r) ++ rest) = pre ++ (f.line ++ (crlf ++ (encFields r ++ rest))) := by simp [encFields]
    have e2 : pre ++ (encFields (f :: r) ++ rest) = (pre ++ f.line ++ crlf) ++ (encFields r ++ rest) := by simp [encFields]
    have hr := readLine pre f.line (encFields r ++ rest) (line_no_cr hf) pre.length rfl
    rw [← e] at hr
    have hi := ih (fun g hg => hc g (by simp [hg])) (pre ++ f.line ++ crlf) n (AMap.set h (f.name.map lower) f.value)
    rw [← e2] at hi
    rw [List.length_cons, ← Nat.add_assoc, headerLoop, hr]
    simp only [headerLine_field f hf, Int.toNat_natCast, List.foldl_cons]
    have hlen : (pre ++ f.line ++ crlf).length = pre.length + f.line.length + 2 := by simp [crlf]; omega
    rw [hlen] at hi
    rw [hi]
    congr 1
    simp [encFields]

theorem fold_lookup (fs : List Field) : ∀ (h : AMap Bytes Bytes) (k : Bytes),
    AMap.get (fs.foldl (fun h f => AMap.set h (f.name.map lower) f.value) h) k = (lookupLast fs k).or (AMap.get h k) := by
  induction fs with
  | nil => intro h k; simp [lookupLast]
  | cons f r ih =>
    intro h k
    simp only [List.foldl_cons, ih, lookupLast, AMap.get_set]
    cases lookupLast r k with
    | some v => simp
    | none => by_cases hk : f.name.map lower = k <;> simp [hk]

/-- A line without a usable colon ends the headers. -/
def Ends (rest : Bytes) : Prop :=
  rest = [] ∨ ∃ s post, rest = s ++ (crlf ++ post) ∧ (13 : UInt8) ∉ s ∧ headerLine s = none

/-- C31: the headers seen are those of the message, up to the first line that is not a header: by default the
empty line that ends the header section. -/
theorem headers_read (first : Bytes) (h1 : (13 : UInt8) ∉ first) (fs : List Field) (hc : ∀ f ∈ fs, f.Clean) (rest : Bytes) (he : Ends rest) (k : Bytes) :
    AMap.get (parseHeaders (first ++ (crlf ++ (encFields fs ++ rest)))) k = lookupLast fs k := by
  have hr := readLine [] first (encFields fs ++ rest) h1 0 rfl
  rw [List.nil_append] at hr
  simp only [parseHeaders, hr]
  have e : first ++ (crlf ++ (encFields fs ++ rest)) = (first ++ crlf) ++ (encFields fs ++ rest) := by simp
  have hnum : fs.length ≤ (encFields fs).length := by
    clear e hr he hc
    induction fs with
    | nil => simp
    | cons f r ih =>
      have : encFields (f :: r) = (f.line ++ crlf) ++ encFields r := by simp [encFields]
      rw [this]; simp [crlf]; omega
  have hbig : (first ++ (crlf ++ (encFields fs ++ rest))).length + 1 ≤ (first ++ (crlf ++ (encFields fs ++ rest))).length + 1 + fs.length := by omega
  have hlen : (([] : Bytes).length + first.length + 2) = (first ++ crlf).length := by simp [crlf]
  rw [hlen, Int.toNat_natCast]
  rw [← headers_bound _ _ (first ++ crlf).length [] (by omega) _ hbig]
  rw [e, loop_fields fs hc rest (first ++ crlf)]
  have hl : ∀ h : AMap Bytes Bytes, headerLoop ((first ++ crlf) ++ (encFields fs ++ rest)) (((first ++ crlf) ++ (encFields fs ++ rest)).length + 1)
      ((first ++ crlf) ++ encFields fs).length h = h := by
    intro h
    rw [headerLoop]
    rcases he with rfl | ⟨s, post, rfl, hs, hn⟩
    · rw [readEnd _ _ (by simp)]
    · have := readLine ((first ++ crlf) ++ encFields fs) s post hs _ rfl
      rw [List.append_assoc] at this
      rw [this]
      simp [hn]
  rw [hl, fold_lookup]
  simp

/-- C31 fails when a header before the trace header has an empty value: the rest is not read, for every request. -/
theorem empty_header_hides_later (first : Bytes) (h1 : (13 : UInt8) ∉ first) (fs : List Field) (hc : ∀ f ∈ fs, f.Clean)
    (name rest : Bytes) (hn : (58 : UInt8) ∉ name) (hn2 : (13 : UInt8) ∉ name) (k : Bytes) :
    AMap.get (parseHeaders (first ++ (crlf ++ (encFields fs ++ (name ++ 58 :: 32 :: (crlf ++ rest)))))) k = lookupLast fs k := by
  apply headers_read first h1 fs hc
  refine .inr ⟨name ++ [58, 32], rest, by simp, by simp [hn2], ?_⟩
  simp only [headerLine, indexOf_mid hn]
  rw [if_neg (by simp)]

theorem ends_blank (post : Bytes) : Ends (crlf ++ post) := .inr ⟨[], post, rfl, by simp, rfl⟩

/-! ## Requests (C62) -/

/-- Spec: the methods of RFC 7231, section 4.1. -/
def rfcMethods : List Bytes := ["GET", "HEAD", "POST", "PUT", "DELETE", "CONNECT", "OPTIONS", "TRACE"].map bs

/-- Spec: the versions whose responses have a status line. -/
def rfcVersions : List Bytes := ["HTTP/1.0", "HTTP/1.1"].map bs

theorem methods_rfc (m : Bytes) : m ∈ rfcMethods ↔ m ∈ methods := by
  have h : (∀ m ∈ rfcMethods, m ∈ methods) ∧ ∀ m ∈ methods, m ∈ rfcMethods := by decide +kernel
  exact ⟨h.1 m, h.2 m⟩

theorem versions_rfc (m : Bytes) : m ∈ rfcVersions ↔ m ∈ versions := by
  have h : (∀ m ∈ rfcVersions, m ∈ versions) ∧ ∀ m ∈ versions, m ∈ rfcVersions := by decide +kernel
  exact ⟨h.1 m, h.2 m⟩

theorem method_facts : ∀ m ∈ methods, (32 : UInt8) ∉ m ∧ m.length < 8 ∧ 3 ≤ m.length := by decide +kernel

theorem keys_differ : kContentKey ≠ kUrl ∧ kContentKey ≠ kMethod ∧ kUrl ≠ kMethod ∧ kTraceType ≠ kMethod ∧ kTraceType ≠ kUrl ∧ kTraceType ≠ kContentKey ∧
    kTraceId ≠ kMethod ∧ kTraceId ≠ kUrl ∧ kTraceId ≠ kContentKey ∧ kTraceType ≠ kTraceId ∧ kStatus ≠ kIsError ∧ kStatus ≠ kErrorType ∧ kIsError ≠ kErrorType ∧
    kContinue ≠ kStatus ∧ kContinue ≠ kIsError ∧ kContinue ≠ kErrorType ∧ kContinue ≠ kTraceType ∧ kContinue ≠ kTraceId ∧ kStatus ≠ kTraceType ∧
    kStatus ≠ kTraceId ∧ kIsError ≠ kTraceType ∧ kIsError ≠ kTraceId ∧ kErrorType ≠ kTraceType ∧ kErrorType ≠ kTraceId := by decide +kernel

/-- Attribute lookup after `addTrace`. -/
theorem addTrace_get (m : Msg) (k : Bytes) :
    AMap.get (addTrace m).attrs k =
      if (parseTraceHeader (parseHeaders m.data)).1.length > 0 ∧ (parseTraceHeader (parseHeaders m.data)).2.length > 0 then
        (if kTraceId = k then some (.str (parseTraceHeader (parseHeaders m.data)).2) else
          if kTraceType = k then some (.str (parseTraceHeader (parseHeaders m.data)).1) else AMap.get m.attrs k)
      else AMap.get m.attrs k := by
  simp only [addTrace]
  split
  · simp only [Msg.add, AMap.get_set]
  · rfl

theorem addTrace_other (m : Msg) (k : Bytes) (h1 : k ≠ kTraceType) (h2 : k ≠ kTraceId) : AMap.get (addTrace m).attrs k = AMap.get m.attrs k := by
  rw [addTrace_get]
  simp [Ne.symm h1, Ne.symm h2]

theorem request_run (cluster : Bytes → Bytes) (method url after : Bytes) (hm : method ∈ methods) (hu : (32 : UInt8) ∉ url)
    (hlen : 14 ≤ (method ++ 32 :: (url ++ 32 :: after)).length) :
    parseRequest cluster (method ++ 32 :: (url ++ 32 :: after)) = .ok (true,
      (((addTrace ⟨method ++ 32 :: (url ++ 32 :: after), 0, []⟩).add kMethod (.str method)).add kUrl (.str (Text.formatUtf8 url))).add kContentKey
        (.str (Text.formatUtf8 (contentKey cluster url)))) := by
  obtain ⟨m1, m2, m3⟩ := method_facts method hm
  have hr := readWordN [] method (url ++ 32 :: after) 8 m1 m2 0 rfl
  rw [List.nil_append] at hr
  have hu2 := readWord (method ++ [32]) url after hu (method.length + 1) (by simp)
  rw [List.append_assoc, List.singleton_append] at hu2
  generalize method ++ 32 :: (url ++ 32 :: after) = d at *
  have hsl : slice d (0 : Nat) d.length = .ok ((d.drop 0).take d.length) := by rw [slice_ok (by omega)]; simp
  simp only [parseRequest, Tree.single, Tree.run, requestTree, requestFastFail, hsl, Res.bind_ok, Res.pure_eq]
  have hd : ¬ d.length < 14 := by omega
  simp only [List.drop_zero, List.take_length, hd, decide_false, Bool.false_eq_true, ↓reduceIte, requestParse, hr, Res.bind_ok]
  simp only [chooseMethod, hm, ↓reduceIte, Res.pure_eq, Res.bind_ok, List.length_nil, Nat.zero_add, Int.toNat_natCast, hu2, Bool.not_true,
    Bool.false_eq_true]
  rfl

/-- C62: of every request line `method url version` the method and the URL are reported, and the content key is
the clustered URL, `*` if that is empty. -/
theorem http_request_parsed (cluster : Bytes → Bytes) (method url after : Bytes) (hm : method ∈ rfcMethods) (hu : (32 : UInt8) ∉ url)
    (hlen : 14 ≤ (method ++ 32 :: (url ++ 32 :: after)).length) :
    ∃ m, parseRequest cluster (method ++ 32 :: (url ++ 32 :: after)) = .ok (true, m) ∧
      AMap.get m.attrs (bs "http_method") = some (.str method) ∧
      AMap.get m.attrs (bs "http_url") = some (.str (Text.formatUtf8 url)) ∧
      AMap.get m.attrs (bs "content_key") = some (.str (Text.formatUtf8 (if cluster url = [] then [42] else cluster url))) ∧
      AMap.get m.attrs (bs "is_error") = none ∧ AMap.get m.attrs (bs "one_way") = none := by
  rw [methods_rfc] at hm
  rw [show bs "http_method" = kMethod from rfl, show bs "http_url" = kUrl from rfl, show bs "content_key" = kContentKey from rfl] at *
  obtain ⟨k1, k2, k3, _⟩ := keys_differ
  refine ⟨_, request_run cluster method url after hm hu hlen, ?_, ?_, ?_, ?_, ?_⟩
  · simp only [Msg.add]; rw [AMap.get_set_ne _ _ k2, AMap.get_set_ne _ _ k3, AMap.get_set_self]
  · simp only [Msg.add]; rw [AMap.get_set_ne _ _ k1, AMap.get_set_self]
  · simp only [Msg.add]; rw [AMap.get_set_self]
    simp only [contentKey, List.length_eq_zero_iff]
    rfl
  · have k4 : kContentKey ≠ bs "is_error" ∧ kUrl ≠ bs "is_error" ∧ kMethod ≠ bs "is_error" ∧ kTraceId ≠ bs "is_error" ∧ kTraceType ≠ bs "is_error" := by
      decide +kernel
    simp only [Msg.add]
    rw [AMap.get_set_ne _ _ k4.1, AMap.get_set_ne _ _ k4.2.1, AMap.get_set_ne _ _ k4.2.2.1, addTrace_get, if_neg k4.2.2.2.1, if_neg k4.2.2.2.2]
    split <;> rfl
  · simp only [Msg.add]
    rw [AMap.get_set_ne _ _ (by decide +kernel), AMap.get_set_ne _ _ (by decide +kernel), AMap.get_set_ne _ _ (by decide +kernel),
      addTrace_other _ _ (by decide +kernel) (by decide +kernel)]; rfl

/-- C62: a payload that starts neither with a method and a blank nor with `ET /` is not an HTTP request. -/
theorem not_http_request (cluster : Bytes → Bytes) (word rest : Bytes) (hw : (32 : UInt8) ∉ word) (hl : word.length < 8)
    (hn : word ∉ rfcMethods) (hs : word ≠ bs "ET") : ∃ m, parseRequest cluster (word ++ 32 :: rest) = .ok (false, m) := by
  rw [methods_rfc] at hn
  obtain ⟨⟨⟨ok, m⟩, h⟩, _⟩ := http_never_panics cluster (word ++ 32 :: rest) []
  refine ⟨m, ?_⟩
  rw [h]
  congr 2
  have hr := readWordN [] word rest 8 hw hl 0 rfl
  rw [List.nil_append] at hr
  revert h
  generalize word ++ 32 :: rest = d at *
  have hsl : slice d (0 : Nat) d.length = .ok ((d.drop 0).take d.length) := by rw [slice_ok (by omega)]; simp
  simp only [parseRequest, Tree.single, Tree.run, requestTree, requestFastFail, hsl, Res.bind_ok, Res.pure_eq]
  by_cases hd : d.length < 14
  · simp only [List.drop_zero, List.take_length, hd, decide_true, ↓reduceIte, Res.bind_ok]
    intro h; cases h; rfl
  · simp only [List.drop_zero, List.take_length, hd, decide_false, Bool.false_eq_true, ↓reduceIte, requestParse, hr, Res.bind_ok]
    simp only [chooseMethod, if_neg hn, if_neg hs, Res.pure_eq, ite_self]
    intro h
    revert h
    cases hi : idx d (((([] : Bytes).length + word.length + 1 : Nat) : Int) - 1) with
    | err => simp
    | panic => simp
    | ok b =>
      simp only [Res.bind_ok]
      split
      · simp only [Res.bind_ok]; intro h; cases h; rfl
      · cases hj : idx d ((([] : Bytes).length + word.length + 1 : Nat) : Int) with
        | err => simp
        | panic => simp
        | ok c => simp only [Res.bind_ok]; intro h; cases h; rfl

/-- C31: the trace attributes of a request with these header fields are decided by these fields alone. -/
theorem http_request_trace_partial (cluster : Bytes → Bytes) (method url version : Bytes) (fs : List Field) (body : Bytes) (hm : method ∈ rfcMethods)
    (hu : (32 : UInt8) ∉ url) (hu2 : (13 : UInt8) ∉ url) (hv : (13 : UInt8) ∉ version) (hv2 : 8 ≤ version.length) (hc : ∀ f ∈ fs, f.Clean) :
    ∃ m h, parseRequest cluster (method ++ 32 :: (url ++ 32 :: (version ++ (crlf ++ (encFields fs ++ (crlf ++ body)))))) = .ok (true, m) ∧
      (∀ k, AMap.get h k = lookupLast fs k) ∧
      ((parseTraceHeader h).1 ≠ [] → (parseTraceHeader h).2 ≠ [] →
        AMap.get m.attrs (bs "trace_type") = some (.str (parseTraceHeader h).1) ∧ AMap.get m.attrs (bs "trace_id") = some (.str (parseTraceHeader h).2)) ∧
      ((parseTraceHeader h).1 = [] ∨ (parseTraceHeader h).2 = [] → AMap.get m.attrs (bs "trace_type") = none ∧ AMap.get m.attrs (bs "trace_id") = none) := by
  rw [methods_rfc] at hm
  rw [show bs "trace_type" = kTraceType from rfl, show bs "trace_id" = kTraceId from rfl] at *
  obtain ⟨m1, m2, m3⟩ := method_facts method hm
  have hlen : 14 ≤ (method ++ 32 :: (url ++ 32 :: (version ++ (crlf ++ (encFields fs ++ (crlf ++ body)))))).length := by simp [crlf]; omega
  have hcr : (13 : UInt8) ∉ method := by
    have : ∀ m ∈ methods, (13 : UInt8) ∉ m := by decide +kernel
    exact this method hm
  have hh := headers_read (method ++ 32 :: (url ++ 32 :: version)) (by simp [hcr, hu2, hv]) fs hc (crlf ++ body) (ends_blank body)
  have e : (method ++ 32 :: (url ++ 32 :: version)) ++ (crlf ++ (encFields fs ++ (crlf ++ body))) =
      method ++ 32 :: (url ++ 32 :: (version ++ (crlf ++ (encFields fs ++ (crlf ++ body))))) := by simp
  rw [e] at hh
  refine ⟨_, parseHeaders (method ++ 32 :: (url ++ 32 :: (version ++ (crlf ++ (encFields fs ++ (crlf ++ body)))))),
    request_run cluster method url _ hm hu hlen, hh, ?_, ?_⟩
  all_goals
    obtain ⟨k1, k2, k3, t1, t2, t3, t4, t5, t6, t7, _⟩ := keys_differ
    intro p1
    simp only [Msg.add]
    rw [AMap.get_set_ne _ _ (Ne.symm t3), AMap.get_set_ne _ _ (Ne.symm t2), AMap.get_set_ne _ _ (Ne.symm t1),
      AMap.get_set_ne _ _ (Ne.symm t6), AMap.get_set_ne _ _ (Ne.symm t5), AMap.get_set_ne _ _ (Ne.symm t4), addTrace_get, addTrace_get]
    simp only
    generalize parseTraceHeader (parseHeaders (method ++ 32 :: (url ++ 32 :: (version ++ (crlf ++ (encFields fs ++ (crlf ++ body))))))) = t at *
  · intro p2
    have q1 : t.1.length > 0 := List.length_pos_iff.2 p1
    have q2 : t.2.length > 0 := List.length_pos_iff.2 p2
    simp only [q1, q2, and_self, ↓reduceIte, Ne.symm t7]
  · have : ¬ (t.1.length > 0 ∧ t.2.length > 0) := by
      intro ⟨q1, q2⟩
      rcases p1 with p | p <;> simp [p] at q1 q2
    simp [this]

/-- C31, one instance through the whole parser: a request whose only trace header is `X-B3-TraceId: id`. -/
theorem zipkin_request (cluster : Bytes → Bytes) (method url version id : Bytes) (body : Bytes) (hm : method ∈ rfcMethods)
    (hu : (32 : UInt8) ∉ url) (hu2 : (13 : UInt8) ∉ url) (hv : (13 : UInt8) ∉ version) (hv2 : 8 ≤ version.length) (hi : id ≠ []) (hi2 : (13 : UInt8) ∉ id) :
    ∃ m, parseRequest cluster (method ++ 32 :: (url ++ 32 :: (version ++ (crlf ++ (encFields [⟨bs "X-B3-TraceId", id⟩] ++ (crlf ++ body)))))) = .ok (true, m) ∧
      AMap.get m.attrs (bs "trace_type") = some (.str (bs "zipkin")) ∧ AMap.get m.attrs (bs "trace_id") = some (.str id) := by
  rw [show bs "trace_type" = kTraceType from rfl, show bs "trace_id" = kTraceId from rfl] at *
  have b1 : bs "X-B3-TraceId" ≠ [] := by decide +kernel
  have b2 : (58 : UInt8) ∉ bs "X-B3-TraceId" := by decide +kernel
  have b3 : (13 : UInt8) ∉ bs "X-B3-TraceId" := by decide +kernel
  have b4 : bs "zipkin" ≠ [] := by decide +kernel
  have hc : ∀ f ∈ [Field.mk (bs "X-B3-TraceId") id], f.Clean := by
    intro f hf
    simp only [List.mem_singleton] at hf
    subst hf
    exact ⟨b1, b2, b3, hi, hi2⟩
  obtain ⟨m, h, h1, h2, h3, _⟩ := http_request_trace_partial cluster method url version _ body hm hu hu2 hv hv2 hc
  have e : bs "x-b3-traceid" ≠ bs "sw8" ∧ bs "x-b3-traceid" ≠ bs "apm-transactionid" ∧ (bs "X-B3-TraceId").map lower = bs "x-b3-traceid" := by
    refine ⟨?_, ?_, ?_⟩ <;> decide +kernel
  have hp := (trace_priority h).2.2.1 id (by rw [h2]; simp [lookupLast, e]) (by rw [h2]; simp [lookupLast, e]) (by rw [h2]; simp [lookupLast, e])
  rw [hp] at h3
  exact ⟨m, h1, h3 b4 hi⟩

/-! ## Responses (C22) -/

theorem version_facts : ∀ v ∈ versions, (32 : UInt8) ∉ v ∧ v.length = 8 := by decide +kernel

theorem responseAttrs_get (m : Msg) (s : Int) :
    AMap.get (responseAttrs m s).attrs kStatus = some (.int s) ∧
    AMap.get (responseAttrs m s).attrs kIsError = (if 400 ≤ s then some (.bool true) else AMap.get m.attrs kIsError) ∧
    AMap.get (responseAttrs m s).attrs kErrorType = (if 400 ≤ s then some (.int 3) else AMap.get m.attrs kErrorType) ∧
    AMap.get (responseAttrs m s).attrs kContinue = (if s = 100 then some (.bool true) else AMap.get m.attrs kContinue) := by
  obtain ⟨_, _, _, _, _, _, _, _, _, _, s1, s2, s3, s4, s5, s6, s7, s8, s9, s10, s11, s12, s13, s14⟩ := keys_differ
  have hm1 : ∀ k, k ≠ kContinue → AMap.get (if s = 100 then m.add kContinue (.bool true) else m).attrs k = AMap.get m.attrs k := by
    intro k hk; split
    · simp only [Msg.add]; rw [AMap.get_set_ne _ _ (Ne.symm hk)]
    · rfl
  have hm1c : AMap.get (if s = 100 then m.add kContinue (.bool true) else m).attrs kContinue = (if s = 100 then some (.bool true) else AMap.get m.attrs kContinue) := by
    split
    · simp only [Msg.add]; rw [AMap.get_set_self]
    · rfl
  simp only [responseAttrs]
  generalize (if s = 100 then m.add kContinue (.bool true) else m) = m1 at *
  have hm2 : ∀ k, k ≠ kTraceType → k ≠ kTraceId → AMap.get (if (!m1.has kTraceType) = true then addTrace m1 else m1).attrs k = AMap.get m1.attrs k := by
    intro k h1 h2; split
    · exact addTrace_other _ _ h1 h2
    · rfl
  generalize (if (!m1.has kTraceType) = true then addTrace m1 else m1) = m2 at *
  by_cases h4 : 400 ≤ s
  · simp only [h4, ↓reduceIte, Msg.add]
    refine ⟨?_, ?_, ?_, ?_⟩
    · rw [AMap.get_set_ne _ _ (Ne.symm s2), AMap.get_set_ne _ _ (Ne.symm s1), AMap.get_set_self]
    · rw [AMap.get_set_ne _ _ (Ne.symm s3), AMap.get_set_self]
    · rw [AMap.get_set_self]
    · rw [AMap.get_set_ne _ _ (Ne.symm s6), AMap.get_set_ne _ _ (Ne.symm s5), AMap.get_set_ne _ _ (Ne.symm s4), hm2 _ s7 s8, hm1c]
  · simp only [h4, ↓reduceIte, Msg.add]
    refine ⟨?_, ?_, ?_, ?_⟩
    · rw [AMap.get_set_self]
    · rw [AMap.get_set_ne _ _ s1, hm2 _ s11 s12, hm1 _ (Ne.symm s5)]
    · rw [AMap.get_set_ne _ _ s2, hm2 _ s13 s14, hm1 _ (Ne.symm s6)]
    · rw [AMap.get_set_ne _ _ (Ne.symm s4), hm2 _ s7 s8, hm1c]

theorem digits_three (s : Nat) (h1 : 100 ≤ s) (h2 : s ≤ 999) : (Dec.digits s).length = 3 := by
  rw [Dec.digits, if_neg (by omega), Dec.digits, if_neg (by omega), Dec.digits, if_pos (by omega)]
  simp

theorem response_run (version : Bytes) (hv : version ∈ versions) (s : Nat) (h1 : 100 ≤ s) (h2 : s ≤ 999) (rest : Bytes) (hr : rest ≠ []) (a : Attrs) :
    parseResponse (version ++ 32 :: (Dec.digits s ++ 32 :: rest)) a =
      .ok (true, responseAttrs ⟨version ++ 32 :: (Dec.digits s ++ 32 :: rest), 9, a⟩ s) := by
  obtain ⟨v1, v2⟩ := version_facts version hv
  have hd3 := digits_three s h1 h2
  have hds : (32 : UInt8) ∉ Dec.digits s := by
    intro h
    have := Dec.digits_all s 32 h
    simp at this
  have r1 := readWordN [] version (Dec.digits s ++ 32 :: rest) 9 v1 (by omega) 0 rfl
  rw [List.nil_append] at r1
  have r2 := readWordN (version ++ [32]) (Dec.digits s) rest 6 hds (by omega) 9 (by simp [v2])
  rw [List.append_assoc, List.singleton_append] at r2
  have hlen : ¬ (version ++ 32 :: (Dec.digits s ++ 32 :: rest)).length < 14 := by
    have : 0 < rest.length := List.length_pos_iff.2 hr
    simp [v2, hd3]; omega
  have hb : idx (version ++ 32 :: (Dec.digits s ++ 32 :: rest)) 8 = .ok 32 := get_mid version 32 _ 8 (by omega)
  generalize version ++ 32 :: (Dec.digits s ++ 32 :: rest) = d at *
  have hsl : slice d (0 : Nat) d.length = .ok ((d.drop 0).take d.length) := by rw [slice_ok (by omega)]; simp
  have hp : Dec.parseInt 64 (Dec.digits s) = ((s : Int), true) := by
    rw [← Redis.formatInt_nat]
    exact Redis.parse_format s ⟨by omega, by omega⟩
  have hcl : clampStatus (s : Int) = s := by simp only [clampStatus]; rw [if_neg (by omega)]
  · have e : (((([] : Bytes).length + version.length + 1 : Nat) : Int)) = 9 := by simp [v2]
    rw [e] at r1
    simp only [parseResponse, Tree.single, Tree.run, responseTree, responseFastFail, hsl, Res.bind_ok, Res.pure_eq]
    simp only [List.drop_zero, List.take_length, hlen, ↓reduceIte, r1, Res.bind_ok, hv, not_true_eq_false, show (9 : Int) - 1 = 8 from rfl, hb,
      ne_eq, decide_false, Bool.false_eq_true]
    simp only [responseParse, r1, Res.bind_ok, Int.reduceToNat, r2, hp, Bool.not_true, Bool.false_eq_true, ↓reduceIte, Res.pure_eq, hcl]
    rfl

/-- C22: of every response with a status line `HTTP/1.x code reason` the code is reported; the record is an error
iff the code is at least 400, and a continue response iff it is 100. -/
theorem http_response_parsed (version : Bytes) (hv : version ∈ rfcVersions) (s : Nat) (h1 : 100 ≤ s) (h2 : s ≤ 999) (rest : Bytes) (hr : rest ≠ []) (a : Attrs) :
    ∃ m, parseResponse (version ++ 32 :: (Dec.digits s ++ 32 :: rest)) a = .ok (true, m) ∧
      AMap.get m.attrs (bs "http_status_code") = some (.int s) ∧
      AMap.get m.attrs (bs "is_error") = (if 400 ≤ s then some (.bool true) else AMap.get a (bs "is_error")) ∧
      AMap.get m.attrs (bs "error_type") = (if 400 ≤ s then some (.int 3) else AMap.get a (bs "error_type")) ∧
      AMap.get m.attrs (bs "http_continue") = (if s = 100 then some (.bool true) else AMap.get a (bs "http_continue")) := by
  rw [versions_rfc] at hv
  rw [show bs "http_status_code" = kStatus from rfl, show bs "is_error" = kIsError from rfl, show bs "error_type" = kErrorType from rfl, show bs "http_continue" = kContinue from rfl] at *
  refine ⟨_, response_run version hv s h1 h2 rest hr a, ?_⟩
  generalize version ++ 32 :: (Dec.digits s ++ 32 :: rest) = d at *
  · have := responseAttrs_get ⟨d, 9, a⟩ s
    refine ⟨this.1, ?_, ?_, ?_⟩
    · rw [this.2.1]; by_cases h : 400 ≤ s
      · rw [if_pos h, if_pos (by omega)]
      · rw [if_neg h, if_neg (by omega)]
    · rw [this.2.2.1]; by_cases h : 400 ≤ s
      · rw [if_pos h, if_pos (by omega)]
      · rw [if_neg h, if_neg (by omega)]
    · rw [this.2.2.2]; by_cases h : s = 100
      · rw [if_pos h, if_pos (by omega)]
      · rw [if_neg h, if_neg (by omega)]

/-- C31: the trace of an exchange is the one its request carries; only if that has none, the header fields of the response
decide, as those of a request do. -/
theorem http_response_trace (version : Bytes) (hv : version ∈ rfcVersions) (s : Nat) (h1 : 100 ≤ s) (h2 : s ≤ 999) (reason : Bytes)
    (hreason : (13 : UInt8) ∉ reason) (fs : List Field) (body : Bytes) (hc : ∀ f ∈ fs, f.Clean) (a : Attrs) :
    ∃ m h, parseResponse (version ++ 32 :: (Dec.digits s ++ 32 :: (reason ++ (crlf ++ (encFields fs ++ (crlf ++ body)))))) a = .ok (true, m) ∧
      (∀ k, AMap.get h k = lookupLast fs k) ∧
      (AMap.get a (bs "trace_type") ≠ none →
        AMap.get m.attrs (bs "trace_type") = AMap.get a (bs "trace_type") ∧ AMap.get m.attrs (bs "trace_id") = AMap.get a (bs "trace_id")) ∧
      (AMap.get a (bs "trace_type") = none → (parseTraceHeader h).1 ≠ [] → (parseTraceHeader h).2 ≠ [] →
        AMap.get m.attrs (bs "trace_type") = some (.str (parseTraceHeader h).1) ∧ AMap.get m.attrs (bs "trace_id") = some (.str (parseTraceHeader h).2)) ∧
      (AMap.get a (bs "trace_type") = none → (parseTraceHeader h).1 = [] ∨ (parseTraceHeader h).2 = [] →
        AMap.get m.attrs (bs "trace_type") = none ∧ AMap.get m.attrs (bs "trace_id") = AMap.get a (bs "trace_id")) := by
  rw [versions_rfc] at hv
  rw [show bs "trace_type" = kTraceType from rfl, show bs "trace_id" = kTraceId from rfl] at *
  have hrun := response_run version hv s h1 h2 (reason ++ (crlf ++ (encFields fs ++ (crlf ++ body)))) (by simp [crlf]) a
  have hv13 : (13 : UInt8) ∉ version := by
    have : ∀ m ∈ versions, (13 : UInt8) ∉ m := by decide +kernel
    exact this version hv
  have hd13 : (13 : UInt8) ∉ Dec.digits s := by
    intro h
    have := Dec.digits_all s 13 h
    simp at this
  have hh := headers_read (version ++ 32 :: (Dec.digits s ++ 32 :: reason)) (by simp [hv13, hd13, hreason]) fs hc (crlf ++ body) (ends_blank body)
  have e : (version ++ 32 :: (Dec.digits s ++ 32 :: reason)) ++ (crlf ++ (encFields fs ++ (crlf ++ body))) =
      version ++ 32 :: (Dec.digits s ++ 32 :: (reason ++ (crlf ++ (encFields fs ++ (crlf ++ body))))) := by simp
  rw [e] at hh
  generalize version ++ 32 :: (Dec.digits s ++ 32 :: (reason ++ (crlf ++ (encFields fs ++ (crlf ++ body))))) = d at *
  refine ⟨_, parseHeaders d, hrun, hh, ?_⟩
  have hget : ∀ k, k = kTraceType ∨ k = kTraceId → AMap.get (responseAttrs ⟨d, 9, a⟩ s).attrs k =
      if AMap.get a kTraceType = none then AMap.get (addTrace ⟨d, 9, a⟩).attrs k else AMap.get a k := by
    intro k hk
    have hn : kStatus ≠ k ∧ kIsError ≠ k ∧ kErrorType ≠ k ∧ kContinue ≠ k := by
      rcases hk with rfl | rfl <;> decide +kernel
    have hct : kContinue ≠ kTraceType := by decide +kernel
    have hC : ∀ k, kContinue ≠ k → AMap.get (if (s : Int) = 100 then (Msg.mk d 9 a).add kContinue (.bool true) else ⟨d, 9, a⟩).attrs k = AMap.get a k := by
      intro k hk
      split
      · simp only [Msg.add]; rw [AMap.get_set_ne _ _ hk]
      · rfl
    have hD : (if (s : Int) = 100 then (Msg.mk d 9 a).add kContinue (.bool true) else ⟨d, 9, a⟩).data = d := by split <;> rfl
    have hlast : ∀ m : Msg, AMap.get (if (s : Int) ≥ 400 then ((m.add kStatus (.int s)).add kIsError (.bool true)).add kErrorType (.int 3)
        else m.add kStatus (.int s)).attrs k = AMap.get m.attrs k := by
      intro m
      split
      · simp only [Msg.add]; rw [AMap.get_set_ne _ _ hn.2.2.1, AMap.get_set_ne _ _ hn.2.1, AMap.get_set_ne _ _ hn.1]
      · simp only [Msg.add]; rw [AMap.get_set_ne _ _ hn.1]
    simp only [responseAttrs]
    rw [hlast]
    have hhas : (if (s : Int) = 100 then (Msg.mk d 9 a).add kContinue (.bool true) else ⟨d, 9, a⟩).has kTraceType = (AMap.get a kTraceType).isSome := by
      unfold Msg.has
      rw [hC _ hct]
    rw [hhas]
    cases hg : AMap.get a kTraceType with
    | none =>
      simp only [Option.isSome_none, Bool.not_false, ↓reduceIte]
      rw [addTrace_get, addTrace_get, hD, hC k hn.2.2.2]
    | some v =>
      simp only [Option.isSome_some, Bool.not_true, Bool.false_eq_true, ↓reduceIte, reduceCtorEq]
      exact hC k hn.2.2.2
  have hne : kTraceId ≠ kTraceType := by decide +kernel
  rw [hget _ (Or.inl rfl), hget _ (Or.inr rfl)]
  refine ⟨fun h0 => by rw [if_neg h0]; exact ⟨rfl, if_neg h0⟩, fun h0 p1 p2 => ?_, fun h0 p1 => ?_⟩
  · rw [if_pos h0, if_pos h0, addTrace_get, addTrace_get]
    have q1 := List.length_pos_iff.2 p1
    have q2 := List.length_pos_iff.2 p2
    simp only [gt_iff_lt, q1, q2, and_self, ↓reduceIte, hne]
  · rw [if_pos h0, if_pos h0, addTrace_get, addTrace_get]
    have : ¬ ((parseTraceHeader (parseHeaders d)).1.length > 0 ∧ (parseTraceHeader (parseHeaders d)).2.length > 0) := by
      intro ⟨q1, q2⟩
      rcases p1 with p | p <;> simp [p] at q1 q2
    simp only [this, ↓reduceIte, h0, and_self]

/-- A status line without the blank after the code (no reason phrase; RFC 7230 asks for the blank) is read
together with the line break and two more bytes, and not recognised. -/
theorem no_reason_not_recognised (version : Bytes) (hv : version ∈ rfcVersions) (s : Nat) (h1 : 100 ≤ s) (h2 : s ≤ 999) (b : UInt8) (hb : b ≠ 32) (rest : Bytes) (a : Attrs) :
    ∃ m, parseResponse (version ++ 32 :: (Dec.digits s ++ (13 :: 10 :: b :: rest))) a = .ok (false, m) := by
  rw [versions_rfc] at hv
  obtain ⟨v1, v2⟩ := version_facts version hv
  have hd3 := digits_three s h1 h2
  have hds : (32 : UInt8) ∉ Dec.digits s := by
    intro h
    have := Dec.digits_all s 32 h
    simp at this
  have r1 := readWordN [] version (Dec.digits s ++ (13 :: 10 :: b :: rest)) 9 v1 (by omega) 0 rfl
  rw [List.nil_append] at r1
  have hlen : (version ++ 32 :: (Dec.digits s ++ (13 :: 10 :: b :: rest))).length = 15 + rest.length := by simp [v2, hd3]; omega
  have hb8 : idx (version ++ 32 :: (Dec.digits s ++ (13 :: 10 :: b :: rest))) 8 = .ok 32 := get_mid version 32 _ 8 (by omega)
  have e15 : (version ++ 32 :: (Dec.digits s ++ (13 :: 10 :: b :: rest))) = (version ++ [32]) ++ (Dec.digits s ++ [13, 10, b]) ++ rest := by simp
  have hw : (32 : UInt8) ∉ Dec.digits s ++ [13, 10, b] := by simp [hds, Ne.symm hb]
  have ht : ((version ++ 32 :: (Dec.digits s ++ (13 :: 10 :: b :: rest))).take 15).drop 9 = Dec.digits s ++ [13, 10, b] := by
    rw [e15, List.take_left' (by simp [v2, hd3]), List.drop_left' (by simp [v2])]
  have hsl9 : slice (version ++ 32 :: (Dec.digits s ++ (13 :: 10 :: b :: rest))) (9 : Nat) (15 : Nat) = .ok (Dec.digits s ++ [13, 10, b]) := by
    rw [slice_ok (by rw [hlen]; omega)]
    congr 1
    rw [e15, List.append_assoc]
    have e9 : ((9 : Nat) : Int).toNat = (version ++ [32]).length := by simp [v2]
    rw [e9, List.drop_left, List.take_left' (by simp [hd3])]
  generalize version ++ 32 :: (Dec.digits s ++ (13 :: 10 :: b :: rest)) = d at *
  have hsl : slice d (0 : Nat) d.length = .ok ((d.drop 0).take d.length) := by rw [slice_ok (by omega)]; simp
  have r2 : readUntilBlankWithLength d 9 6 = .ok (15, Dec.digits s ++ [13, 10, b]) := by
    simp only [readUntilBlankWithLength]
    have hL : (if 6 + 9 < d.length then 9 + 6 else d.length) = 15 := by split <;> omega
    rw [hL, ht, findBlank_none hw, hsl9]
    rfl
  have hp : (Dec.parseInt 64 (Dec.digits s ++ [13, 10, b])).2 = false := by
    have hn : Dec.parseNat (Dec.digits s ++ [13, 10, b]) = none := by
      simp only [Dec.parseNat]
      rw [if_neg (by simp), Dec.foldDigits_append, Dec.foldDigits_digits]
      simp [Dec.foldDigits]
    have hh : ∃ x t, Dec.digits s = x :: t ∧ x ≠ 45 ∧ x ≠ 43 := by
      cases hd : Dec.digits s with
      | nil => exact absurd hd (Dec.digits_ne_nil s)
      | cons x t =>
        have := Dec.digits_all s x (by simp [hd])
        refine ⟨x, t, rfl, ?_, ?_⟩ <;> · rintro rfl; simp at this
    obtain ⟨x, t, hxt, hx1, hx2⟩ := hh
    rw [hxt] at hn ⊢
    simp only [Dec.parseInt, List.cons_append] at hn ⊢
    simp only [hn, hx1, hx2, ↓reduceIte]
    split <;> rfl
  have e : (((([] : Bytes).length + version.length + 1 : Nat) : Int)) = 9 := by simp [v2]
  rw [e] at r1
  have hl14 : ¬ d.length < 14 := by omega
  refine ⟨⟨d, 9, a⟩, ?_⟩
  simp only [parseResponse, Tree.single, Tree.run, responseTree, responseFastFail, hsl, Res.bind_ok, Res.pure_eq]
  simp only [List.drop_zero, List.take_length, hl14, ↓reduceIte, r1, Res.bind_ok, hv, not_true_eq_false, show (9 : Int) - 1 = 8 from rfl, hb8,
    ne_eq, decide_false, Bool.false_eq_true]
  simp only [responseParse, r1, Res.bind_ok, Int.reduceToNat, r2, hp, Bool.not_false, ↓reduceIte, Res.pure_eq]
  rfl

/-! ## Samples -/

example : (bs "GET") ∈ rfcMethods ∧ (32 : UInt8) ∉ bs "/a?b" ∧ 14 ≤ (bs "GET" ++ 32 :: (bs "/a?b" ++ 32 :: bs "HTTP/1.1")).length := by decide +kernel
example : ∀ f ∈ [Field.mk (bs "Host") (bs "x"), ⟨bs "sw8", bs "1-TWE=-x"⟩], f.Clean := by
  simp only [Field.Clean]; decide +kernel
example : bs "HTTP/1.1" ∈ rfcVersions := by decide +kernel
example : bs "PATCH" ∉ rfcMethods ∧ bs "PATCH" ≠ bs "ET" ∧ (bs "PATCH").length < 8 := by decide +kernel

/-- C31: field names are compared without case: of the 26 letters the small ones stand for both, all other bytes are themselves. -/
theorem lower_letters (b c : UInt8) : lower b = lower c ↔
    b = c ∨ (∃ i < 26, (b.toNat = 65 + i ∧ c.toNat = 97 + i) ∨ (b.toNat = 97 + i ∧ c.toNat = 65 + i)) := by
  have h : ∀ x : Fin 256, (lower (UInt8.ofNat x.1)).toNat = if 65 ≤ x.1 ∧ x.1 ≤ 90 then x.1 + 32 else x.1 := by decide +kernel
  have hb := h ⟨b.toNat, b.toNat_lt⟩
  have hc := h ⟨c.toNat, c.toNat_lt⟩
  simp only [UInt8.ofNat_toNat] at hb hc
  rw [← UInt8.toNat_inj, hb, hc]
  have : (if 65 ≤ b.toNat ∧ b.toNat ≤ 90 then b.toNat + 32 else b.toNat) = (if 65 ≤ c.toNat ∧ c.toNat ≤ 90 then c.toNat + 32 else c.toNat) ↔
      b.toNat = c.toNat ∨ (65 ≤ b.toNat ∧ b.toNat ≤ 90 ∧ c.toNat = b.toNat + 32) ∨ (97 ≤ b.toNat ∧ b.toNat ≤ 122 ∧ b.toNat = c.toNat + 32) := by
    split <;> split <;> omega
  rw [this]
  constructor
  · rintro (h | ⟨h1, h2, h3⟩ | ⟨h1, h2, h3⟩)
    · exact Or.inl (UInt8.toNat_inj.1 h)
    · exact Or.inr ⟨b.toNat - 65, by omega, by omega⟩
    · exact Or.inr ⟨b.toNat - 97, by omega, by omega⟩
  · rintro (rfl | ⟨i, hi, ⟨h1, h2⟩ | ⟨h1, h2⟩⟩)
    · exact Or.inl rfl
    · exact Or.inr (Or.inl (by omega))
    · exact Or.inr (Or.inr (by omega))

/-- Small letters stand for themselves, so that the trace headers are looked up by their names in small letters. -/
theorem lower_small (b : UInt8) (h : ¬ (65 ≤ b.toNat ∧ b.toNat ≤ 90)) : lower b = b := by
  unfold lower
  rw [if_neg]
  rw [UInt8.le_iff_toNat_le, UInt8.le_iff_toNat_le]
  exact h

/-- C31: a header line that starts with a colon ends the headers, too. -/
theorem nameless_header_hides_later (first : Bytes) (h1 : (13 : UInt8) ∉ first) (fs : List Field) (hc : ∀ f ∈ fs, f.Clean)
    (value rest : Bytes) (hv : (13 : UInt8) ∉ value) (k : Bytes) :
    AMap.get (parseHeaders (first ++ (crlf ++ (encFields fs ++ (58 :: value ++ (crlf ++ rest)))))) k = lookupLast fs k := by
  apply headers_read first h1 fs hc
  refine .inr ⟨58 :: value, rest, by simp, by simp [hv], ?_⟩
  simp only [headerLine, indexOf, ↓reduceIte]
  rw [if_neg (by simp)]

/-- C22: of a status of at most five digits only those from 99 to 999 are reported, any other as 0. -/
theorem http_status_range (version : Bytes) (hv : version ∈ rfcVersions) (n : Nat) (h2 : n ≤ 99999) (rest : Bytes) (hr : 4 ≤ rest.length) (a : Attrs) :
    ∃ m, parseResponse (version ++ 32 :: (Dec.digits n ++ 32 :: rest)) a = .ok (true, m) ∧
      AMap.get m.attrs (bs "http_status_code") = some (.int (if 99 ≤ n ∧ n ≤ 999 then n else 0)) := by
  rw [versions_rfc] at hv
  rw [show bs "http_status_code" = kStatus from rfl]
  obtain ⟨v1, v2⟩ := version_facts version hv
  have hd5 : (Dec.digits n).length < 6 := by
    have hl : ∀ k n, n < 10 ^ (k + 1) → (Dec.digits n).length ≤ k + 1 := by
      intro k
      induction k with
      | zero => intro n hn; rw [Dec.digits, if_pos (by omega)]; simp
      | succ k ih =>
        intro n hn
        rw [Dec.digits]
        split
        · simp
        · have := ih (n / 10) (by rw [Nat.pow_succ] at hn; omega)
          simp only [List.length_append, List.length_cons, List.length_nil]; omega
    have := hl 4 n (by omega)
    omega
  have hds : (32 : UInt8) ∉ Dec.digits n := by
    intro h
    have := Dec.digits_all n 32 h
    simp at this
  have r1 := readWordN [] version (Dec.digits n ++ 32 :: rest) 9 v1 (by omega) 0 rfl
  rw [List.nil_append] at r1
  have r2 := readWordN (version ++ [32]) (Dec.digits n) rest 6 hds (by omega) 9 (by simp [v2])
  rw [List.append_assoc, List.singleton_append] at r2
  have hlen : ¬ (version ++ 32 :: (Dec.digits n ++ 32 :: rest)).length < 14 := by
    simp [v2]; omega
  have hb : idx (version ++ 32 :: (Dec.digits n ++ 32 :: rest)) 8 = .ok 32 := get_mid version 32 _ 8 (by omega)
  generalize version ++ 32 :: (Dec.digits n ++ 32 :: rest) = d at *
  have hsl : slice d (0 : Nat) d.length = .ok ((d.drop 0).take d.length) := by rw [slice_ok (by omega)]; simp
  have hp : Dec.parseInt 64 (Dec.digits n) = ((n : Int), true) := by
    rw [← Redis.formatInt_nat]
    exact Redis.parse_format n ⟨by omega, by omega⟩
  refine ⟨responseAttrs ⟨d, 9, a⟩ (clampStatus n), ?_, ?_⟩
  · have e : (((([] : Bytes).length + version.length + 1 : Nat) : Int)) = 9 := by simp [v2]
    rw [e] at r1
    simp only [parseResponse, Tree.single, Tree.run, responseTree, responseFastFail, hsl, Res.bind_ok, Res.pure_eq]
    simp only [List.drop_zero, List.take_length, hlen, ↓reduceIte, r1, Res.bind_ok, hv, not_true_eq_false, show (9 : Int) - 1 = 8 from rfl, hb,
      ne_eq, decide_false, Bool.false_eq_true]
    simp only [responseParse, r1, Res.bind_ok, Int.reduceToNat, r2, hp, Bool.not_true, Bool.false_eq_true, ↓reduceIte, Res.pure_eq]
    rfl
  · rw [(responseAttrs_get ⟨d, 9, a⟩ (clampStatus n)).1]
    unfold clampStatus
    by_cases h : 99 ≤ n ∧ n ≤ 999
    · rw [if_pos h, if_neg (by omega)]
    · rw [if_neg h, if_pos (by omega)]

/-- C22: what is left of a GET whose first byte was in another packet is taken for it exactly if a blank and a slash follow. -/
theorem split_get (d : Bytes) (offset : Int) :
    chooseMethod d offset (bs "ET") = .ok (some (bs "GET")) ↔ idx d (offset - 1) = .ok 32 ∧ idx d offset = .ok 47 := by
  have hn : bs "ET" ∉ methods := by decide
  unfold chooseMethod
  rw [if_neg hn]
  cases h1 : idx d (offset - 1) with
  | err => simp
  | panic => simp
  | ok b =>
    by_cases hb : b = 32
    · subst hb
      cases h2 : idx d offset with
      | err => simp
      | panic => simp
      | ok c => by_cases hc : c = 47 <;> simp [hc]
    · simp [hb]

end Kindling.Proto.Http
