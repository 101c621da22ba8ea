import Verif.Proto.Codec
/-
Model of collector/pkg/component/analyzer/tools/traceid_parser.go.
-/
namespace Kindling.Trace
open Kindling

/-! ## `encoding/base64` of Go's library, as used by traceid_parser.go:54 -/

/-- `decodeMap` of the standard alphabet. -/
def decodeChar (b : UInt8) : Option Nat :=
  if 65 ≤ b ∧ b ≤ 90 then some (b.toNat - 65)
  else if 97 ≤ b ∧ b ≤ 122 then some (b.toNat - 97 + 26)
  else if 48 ≤ b ∧ b ≤ 57 then some (b.toNat - 48 + 52)
  else if b = 43 then some 62
  else if b = 47 then some 63
  else none

def byte0 (x y : Nat) : UInt8 := UInt8.ofNat (x * 4 + y / 16)
def byte1 (y z : Nat) : UInt8 := UInt8.ofNat (y % 16 * 16 + z / 4)
def byte2 (z w : Nat) : UInt8 := UInt8.ofNat (z % 4 * 64 + w)

/-- `decodeQuantum` in turn; four characters give up to three bytes, padding ends the text. -/
def decodeQuanta : Bytes → Option Bytes
  | [] => some []
  | a :: b :: c :: d :: r =>
    match decodeChar a, decodeChar b with
    | some x, some y =>
      match decodeChar c with
      | some z =>
        match decodeChar d with
        | some w => (decodeQuanta r).map (fun t => byte0 x y :: byte1 y z :: byte2 z w :: t)
        | none => if d = 61 ∧ r = [] then some [byte0 x y, byte1 y z] else none
      | none => if c = 61 ∧ d = 61 ∧ r = [] then some [byte0 x y] else none
    | _, _ => none
  | _ => none

/-- `base64.StdEncoding.DecodeString`; the decoder skips line breaks wherever they are. -/
def decode64 (s : Bytes) : Option Bytes := decodeQuanta (s.filter (fun b => b ≠ 10 && b ≠ 13))

/-! ## Trace headers -/

/-- traceid_parser.go:41-59 `parseSkyWalkingTraceId`. -/
def parseSkyWalking (v : Bytes) : Bytes :=
  if v.length < 3 then []
  else match decode64 ((v.drop 2).takeWhile (· ≠ 45)) with
    | some t => t
    | none => []

/-- `strings.Index(s, string(c))`. -/
def indexOf (c : UInt8) : Bytes → Option Nat
  | [] => none
  | b :: r => if b = c then some 0 else (indexOf c r).map (· + 1)

def hSw8 : Bytes := bs "sw8"
def hApm : Bytes := bs "apm-transactionid"
def hB3 : Bytes := bs "x-b3-traceid"
def hUber : Bytes := bs "uber-trace-id"
def hParent : Bytes := bs "traceparent"
def hResponse : Bytes := bs "traceresponse"

/-- traceid_parser.go:22-27: the part before a colon. -/
def jaegerId (v : Bytes) : Bytes :=
  match indexOf 58 v with
  | some pos => if pos > 0 then v.take pos else v
  | none => v

/-- traceid_parser.go:8-37 `ParseTraceHeader`: (type, id). -/
def parseTraceHeader (h : AMap Bytes Bytes) : Bytes × Bytes :=
  match AMap.get h hSw8 with
  | some v => (bs "skywalking", parseSkyWalking v)
  | none =>
  match AMap.get h hApm with
  | some v => (bs "harmonycloud", v)
  | none =>
  match AMap.get h hB3 with
  | some v => (bs "zipkin", v)
  | none =>
  match AMap.get h hUber with
  | some v => (bs "jaeger", jaegerId v)
  | none =>
  match (AMap.get h hParent).filter (fun v => 35 ≤ v.length) with
  | some v => (bs "w3c", (v.drop 3).take 32)
  | none =>
  match (AMap.get h hResponse).filter (fun v => 35 ≤ v.length) with
  | some v => (bs "w3c", (v.drop 3).take 32)
  | none => ([], [])

/-! ## Base64 round trip -/

/-- RFC 4648, section 4. -/
def encodeChar (n : Nat) : UInt8 :=
  if n < 26 then UInt8.ofNat (65 + n)
  else if n < 52 then UInt8.ofNat (97 + (n - 26))
  else if n < 62 then UInt8.ofNat (48 + (n - 52))
  else if n = 62 then 43 else 47

def encode64 : Bytes → Bytes
  | [] => []
  | [a] => [encodeChar (a.toNat / 4), encodeChar (a.toNat % 4 * 16), 61, 61]
  | [a, b] => [encodeChar (a.toNat / 4), encodeChar (a.toNat % 4 * 16 + b.toNat / 16), encodeChar (b.toNat % 16 * 4), 61]
  | a :: b :: c :: r =>
    encodeChar (a.toNat / 4) :: encodeChar (a.toNat % 4 * 16 + b.toNat / 16) ::
      encodeChar (b.toNat % 16 * 4 + c.toNat / 64) :: encodeChar (c.toNat % 64) :: encode64 r

theorem decode_encodeChar : ∀ n, n < 64 → decodeChar (encodeChar n) = some n := by decide +kernel
theorem encodeChar_plain : ∀ n, n < 64 → encodeChar n ≠ 10 ∧ encodeChar n ≠ 13 ∧ encodeChar n ≠ 45 := by decide +kernel
theorem decode_pad : decodeChar 61 = none := by decide

theorem eq_ofNat {a : UInt8} {n : Nat} (h : a.toNat = n) : UInt8.ofNat n = a := by subst h; simp

theorem quanta_encode (l : Bytes) : decodeQuanta (encode64 l) = some l := by
  fun_induction encode64 l with
  | case1 => rfl
  | case2 a =>
    have ha := UInt8.toNat_lt a
    simp only [decodeQuanta, decode_encodeChar _ (show a.toNat / 4 < 64 by omega), decode_encodeChar _ (show a.toNat % 4 * 16 < 64 by omega), decode_pad, byte0]
    simp only [and_self, ↓reduceIte]
    rw [@eq_ofNat a _ (by omega)]
  | case3 a b =>
    have ha := UInt8.toNat_lt a
    have hb := UInt8.toNat_lt b
    simp only [decodeQuanta, decode_encodeChar _ (show a.toNat / 4 < 64 by omega), decode_encodeChar _ (show a.toNat % 4 * 16 + b.toNat / 16 < 64 by omega),
      decode_encodeChar _ (show b.toNat % 16 * 4 < 64 by omega), decode_pad, byte0, byte1]
    simp only [and_self, ↓reduceIte]
    rw [@eq_ofNat a _ (by omega), @eq_ofNat b _ (by omega)]
  | case4 a b c r ih =>
    have ha := UInt8.toNat_lt a
    have hb := UInt8.toNat_lt b
    have hc := UInt8.toNat_lt c
    simp only [decodeQuanta, decode_encodeChar _ (show a.toNat / 4 < 64 by omega), decode_encodeChar _ (show a.toNat % 4 * 16 + b.toNat / 16 < 64 by omega),
      decode_encodeChar _ (show b.toNat % 16 * 4 + c.toNat / 64 < 64 by omega), decode_encodeChar _ (show c.toNat % 64 < 64 by omega), ih, byte0, byte1, byte2]
    simp only [Option.map_some]
    rw [@eq_ofNat a _ (by omega), @eq_ofNat b _ (by omega), @eq_ofNat c _ (by omega)]

theorem encode_plain (l : Bytes) : ∀ x ∈ encode64 l, x ≠ 10 ∧ x ≠ 13 ∧ x ≠ 45 := by
  fun_induction encode64 l with
  | case1 => simp
  | case2 a =>
    have ha := UInt8.toNat_lt a
    intro x hx
    simp only [List.mem_cons, List.not_mem_nil, or_false] at hx
    rcases hx with rfl | rfl | rfl | rfl
    · exact encodeChar_plain _ (by omega)
    · exact encodeChar_plain _ (by omega)
    · decide
    · decide
  | case3 a b =>
    have ha := UInt8.toNat_lt a
    have hb := UInt8.toNat_lt b
    intro x hx
    simp only [List.mem_cons, List.not_mem_nil, or_false] at hx
    rcases hx with rfl | rfl | rfl | rfl
    · exact encodeChar_plain _ (by omega)
    · exact encodeChar_plain _ (by omega)
    · exact encodeChar_plain _ (by omega)
    · decide
  | case4 a b c r ih =>
    have ha := UInt8.toNat_lt a
    have hb := UInt8.toNat_lt b
    have hc := UInt8.toNat_lt c
    intro x hx
    simp only [List.mem_cons] at hx
    rcases hx with rfl | rfl | rfl | rfl | hx
    · exact encodeChar_plain _ (by omega)
    · exact encodeChar_plain _ (by omega)
    · exact encodeChar_plain _ (by omega)
    · exact encodeChar_plain _ (by omega)
    · exact ih x hx

/-- Decoding inverts encoding for every byte string. -/
theorem base64_roundtrip (l : Bytes) : decode64 (encode64 l) = some l := by
  rw [decode64, List.filter_eq_self.2, quanta_encode]
  intro x hx
  have := encode_plain l x hx
  simp [this.1, this.2.1]

/-- C31: the trace id of a SkyWalking header `1-<id>-...` is the encoded one. -/
theorem skywalking_id (sample : UInt8) (id rest : Bytes) :
    parseSkyWalking (sample :: 45 :: (encode64 id ++ 45 :: rest)) = id := by
  simp only [parseSkyWalking]
  rw [if_neg (by simp; omega)]
  have e : ((sample :: 45 :: (encode64 id ++ 45 :: rest)).drop 2).takeWhile (· ≠ 45) = encode64 id := by
    simp only [List.drop_succ_cons, List.drop_zero]
    have : ∀ l : Bytes, (∀ x ∈ l, x ≠ 45) → (l ++ 45 :: rest).takeWhile (· ≠ 45) = l := by
      intro l hl
      induction l with
      | nil => simp
      | cons a r ih =>
        have ha := hl a (by simp)
        have := ih (fun x hx => hl x (by simp [hx]))
        simp [ha] at this ⊢
        exact this
    exact this _ (fun x hx => (encode_plain id x hx).2.2)
  rw [e, base64_roundtrip]

/-- C31: of several trace headers the first in the order sw8, apm-transactionid, x-b3-traceid, uber-trace-id,
traceparent, traceresponse decides; the last two only count with at least 35 bytes. -/
theorem trace_priority (h : AMap Bytes Bytes) :
    (∀ v, AMap.get h (bs "sw8") = some v → (parseTraceHeader h).1 = bs "skywalking") ∧
    (∀ v, AMap.get h (bs "sw8") = none → AMap.get h (bs "apm-transactionid") = some v → parseTraceHeader h = (bs "harmonycloud", v)) ∧
    (∀ v, AMap.get h (bs "sw8") = none → AMap.get h (bs "apm-transactionid") = none → AMap.get h (bs "x-b3-traceid") = some v → parseTraceHeader h = (bs "zipkin", v)) ∧
    (∀ v id r, AMap.get h (bs "sw8") = none → AMap.get h (bs "apm-transactionid") = none → AMap.get h (bs "x-b3-traceid") = none → AMap.get h (bs "uber-trace-id") = some v →
      id ≠ [] → 58 ∉ id → (v = id ∨ v = id ++ 58 :: r) → parseTraceHeader h = (bs "jaeger", id)) ∧
    (∀ ver id r, AMap.get h (bs "sw8") = none → AMap.get h (bs "apm-transactionid") = none → AMap.get h (bs "x-b3-traceid") = none → AMap.get h (bs "uber-trace-id") = none →
      ver.length = 3 → id.length = 32 →
      (AMap.get h (bs "traceparent") = some (ver ++ id ++ r) ∨ (AMap.get h (bs "traceparent") = none ∧ AMap.get h (bs "traceresponse") = some (ver ++ id ++ r))) →
      parseTraceHeader h = (bs "w3c", id)) ∧
    (AMap.get h (bs "sw8") = none → AMap.get h (bs "apm-transactionid") = none → AMap.get h (bs "x-b3-traceid") = none → AMap.get h (bs "uber-trace-id") = none →
      AMap.get h (bs "traceparent") = none → AMap.get h (bs "traceresponse") = none → parseTraceHeader h = ([], [])) := by
  rw [show bs "sw8" = hSw8 from rfl, show bs "apm-transactionid" = hApm from rfl, show bs "x-b3-traceid" = hB3 from rfl, show bs "uber-trace-id" = hUber from rfl, show bs "traceparent" = hParent from rfl, show bs "traceresponse" = hResponse from rfl] at *
  refine ⟨?_, ?_, ?_, ?_, ?_, ?_⟩
  · intro v h1; simp [parseTraceHeader, h1]
  · intro v h1 h2; simp [parseTraceHeader, h1, h2]
  · intro v h1 h2 h3; simp [parseTraceHeader, h1, h2, h3]
  · intro v id r h1 h2 h3 h4 h5 h6 h7
    simp only [parseTraceHeader, h1, h2, h3, h4]
    congr 1
    have hn : ∀ l : Bytes, 58 ∉ l → indexOf 58 l = none := by
      intro l hl
      induction l with
      | nil => rfl
      | cons a t ih =>
        have ha : a ≠ 58 := fun e => hl (by simp [e])
        simp [indexOf, ha, ih (fun e => hl (by simp [e]))]
    have hs : ∀ l : Bytes, 58 ∉ l → indexOf 58 (l ++ 58 :: r) = some l.length := by
      intro l hl
      induction l with
      | nil => simp [indexOf]
      | cons a t ih =>
        have ha : a ≠ 58 := fun e => hl (by simp [e])
        simp [indexOf, ha, ih (fun e => hl (by simp [e]))]
    rcases h7 with rfl | rfl
    · simp [jaegerId, hn _ h6]
    · have : 0 < id.length := by cases id <;> simp at h5 ⊢
      simp [jaegerId, hs _ h6, this]
  · intro ver id r h1 h2 h3 h4 h5 h6 h7
    have e : ((ver ++ id ++ r).drop 3).take 32 = id := by
      rw [List.append_assoc, ← h5, List.drop_left, ← h6, List.take_left]
    have hl : 35 ≤ (ver ++ id ++ r).length := by simp; omega
    rcases h7 with h7 | ⟨h7, h8⟩
    · simp only [parseTraceHeader, h1, h2, h3, h4, h7, Option.filter, decide_eq_true hl, ↓reduceIte, e]
    · simp only [parseTraceHeader, h1, h2, h3, h4, h7, h8, Option.filter, decide_eq_true hl, ↓reduceIte, e]
  · intro h1 h2 h3 h4 h5 h6; simp [parseTraceHeader, h1, h2, h3, h4, h5, h6]

/-- C31 fails as a search for a usable id: an unreadable `sw8` header hides every other one. -/
theorem bad_sw8_hides_others (h : AMap Bytes Bytes) (v : Bytes) (h1 : AMap.get h (bs "sw8") = some v) (h2 : v.length < 3) :
    parseTraceHeader h = (bs "skywalking", []) := by
  rw [show bs "sw8" = hSw8 from rfl] at *
  simp [parseTraceHeader, h1, parseSkyWalking, h2]

example : encode64 (bs "Man") = bs "TWFu" := by decide +kernel
example : parseSkyWalking (bs "1-TWE=-x") = bs "Ma" := by decide +kernel

/-- C31: line breaks inside the encoded id are skipped. -/
theorem base64_line_breaks (l d : Bytes) (h : l.filter (fun b => decide (b ∉ bs "\r\n")) = encode64 d) : decode64 l = some d := by
  have : (fun b : UInt8 => b ≠ 10 && b ≠ 13) = fun b => decide (b ∉ bs "\r\n") := by
    funext b
    rw [show bs "\r\n" = [13, 10] by decide +kernel]
    by_cases h1 : b = 10 <;> by_cases h2 : b = 13 <;> simp [h1, h2]
  rw [decode64, this, h, quanta_encode]

example : (bs "TW\r\nFu").filter (fun b => decide (b ∉ bs "\r\n")) = encode64 (bs "Man") := by decide +kernel

end Kindling.Trace
