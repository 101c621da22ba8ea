import Verif.Proto.Dubbo
import Verif.Proto.Codec
/-
Model of collector/pkg/component/analyzer/network/protocol/rocketmq.
Properties C66, the RocketMQ parts of C24 and C21.

Simplifications, for the whole file:
* `encoding/json` is a parameter: from bytes to a header or failure;
* the two tables of texts (rocketmq_api.go:16-112, 115-160) are parameters; the proofs hold for any tables.
-/
namespace Kindling.Proto.Rocketmq
open Kindling Kindling.Agg Kindling.Proto

def kContentKey : Bytes := bs "content_key"
def kRequestMsg : Bytes := bs "rocketmq_request_msg"
def kOpaque : Bytes := bs "rocketmq_opaque"
def kErrCode : Bytes := bs "rocketmq_error_code"
def kErrMsg : Bytes := bs "rocketmq_error_msg"
def kIsError : Bytes := bs "is_error"
def kErrorType : Bytes := bs "error_type"
def tTopic : Bytes := bs "topic"
def tB : Bytes := bs "b"

/-- rocketmq_api.go:3-13 `rocketmqHeader`, the fields that are used. -/
structure Header where
  code : Int
  oid : Int
  remark : Bytes
  ext : AMap Bytes Bytes
deriving DecidableEq, Repr

/-- What is outside the model. -/
structure Env where
  /-- `json.Unmarshal` into a header; `none`: an error. -/
  json : Bytes → Option Header
  /-- rocketmq_api.go:16-112 `requestMsgMap`, "" if absent. -/
  requestMsg : Int → Bytes
  /-- rocketmq_api.go:115-160 `responseErrMsgMap`. -/
  responseMsg : Int → Option Bytes

/-- A read whose error is ignored: the variable stays 0. -/
def orZero (r : Res (Int × Int)) : Res Int := match r with
  | .ok (v, _) => .ok v
  | .err => .ok 0
  | .panic => .panic

/-- rocketmq_request.go:89-104: one field; `.err`: the loop ends. -/
def readField (d : Bytes) (off : Int) : Res (Int × Bytes × Int × Bytes × Int) := do
  let (keyLen, o) ← readInt16 d off
  let (key, o) ← readBytes d o keyLen
  let (valueLen, o) ← readInt32 d o
  let (value, o) ← readBytes d o valueLen
  pure (keyLen, key, valueLen, value, o)

/-- rocketmq_request.go:88-110: the loop over the fields.  Running out of `fuel` counts as a panic;
`rocketmq_never_panics` shows that it does not happen. -/
def extLoop (d : Bytes) (extLen : Int) : Nat → Int → Int → AMap Bytes Bytes → Res (AMap Bytes Bytes)
  | 0, _, n, m => if n < extLen ∧ n + 29 < d.length then .panic else .ok m
  | fuel + 1, off, n, m =>
    if n < extLen ∧ n + 29 < d.length then
      match readField d off with
      | .panic => .panic
      | .err => .ok m
      | .ok (keyLen, key, valueLen, value, o) =>
        if key = tTopic ∨ key = tB then .ok (AMap.set m key value)
        else extLoop d extLen fuel o (n + 2 + keyLen + 4 + valueLen) (AMap.set m key value)
    else .ok m

/-- rocketmq_request.go:62-113 `parseHeader` (the version and the flag are not used). -/
def parseHeader (d : Bytes) : Res Header := do
  let code ← orZero (readInt16 d 8)
  let _ ← idx d 10
  let oid ← orZero (readInt32 d 13)
  let remarkLen ← orZero (readInt32 d 21)
  let extLen ← orZero (readInt32 d 25)
  let off : Int := match readInt32 d 25 with
    | .ok (_, o) => o
    | _ => -1
  if extLen > 0 ∧ remarkLen = 0 then do
    let m ← extLoop d extLen d.length off 0 []
    pure ⟨code, oid, [], m⟩
  else pure ⟨code, oid, [], []⟩

/-- rocketmq_request.go:25-41, rocketmq_response.go:24-40: the header, `none` if the payload is rejected. -/
def getHeader (e : Env) (d : Bytes) : Res (Option Header) := do
  let t ← idx d 4
  if t = 0 then do
    let len ← orZero (readInt32 d 4)
    match readBytes d 8 len with
    | .panic => .panic
    | .err => .ok none
    | .ok (hb, _) => .ok (e.json hb)
  else if t = 1 then do
    let h ← parseHeader d
    pure (some h)
  else pure none

/-- `header.ExtFields[k]`. -/
def extGet (h : Header) (k : Bytes) : Bytes := (AMap.get h.ext k).getD []

/-- rocketmq_request.go:48-54. -/
def requestKey (e : Env) (h : Header) : Bytes :=
  if extGet h tTopic ≠ [] then bs "Topic:" ++ extGet h tTopic
  else if extGet h tB ≠ [] then bs "Topic:" ++ extGet h tB
  else e.requestMsg h.code

/-- rocketmq_request.go:11-15, rocketmq_response.go:10-14. -/
def fastFail : FastFail := fun m => pure (decide (m.data.length < 29))

/-- rocketmq_request.go:17-59 `parseRocketMQRequest`. -/
def requestParse (e : Env) : ParseFn := fun m => do
  match ← getHeader e m.data with
  | none => pure ((false, true), m)
  | some h => pure ((true, true), ((m.add kRequestMsg (.str (e.requestMsg h.code))).add kOpaque (.int h.oid)).add kContentKey (.str (requestKey e h)))

/-- rocketmq_response.go:52-58. -/
def errText (e : Env) (h : Header) : Bytes := match e.responseMsg h.code with
  | some t => t
  | none => if h.remark ≠ [] then h.remark else bs "error:response code is " ++ Dec.formatInt h.code

/-- model/attribute_map.go:92-98 `GetIntValue`. -/
def getInt (a : Attrs) (k : Bytes) : Int := match AMap.get a k with
  | some (.int i) => i
  | _ => 0

/-- rocketmq_response.go:16-65 `parseRocketMQResponse`. -/
def responseParse (e : Env) : ParseFn := fun m => do
  match ← getHeader e m.data with
  | none => pure ((false, true), m)
  | some h =>
    if !m.has kOpaque || getInt m.attrs kOpaque ≠ h.oid then pure ((false, true), m)
    else
      let m1 := m.add kErrCode (.int h.code)
      if h.code > 0 then pure ((true, true), ((m1.add kErrMsg (.str (errText e h))).add kIsError (.bool true)).add kErrorType (.int 3))
      else pure ((true, true), m1)

/-- rocketmq_parser.go:5-10. -/
def requestTree (e : Env) : Tree := ⟨fastFail, requestParse e, []⟩
def responseTree (e : Env) : Tree := ⟨fastFail, responseParse e, []⟩

def parseRequest (e : Env) (d : Bytes) : Res (Bool × Msg) := (requestTree e).single ⟨d, 0, []⟩
def parseResponse (e : Env) (d : Bytes) (a : Attrs) : Res (Bool × Msg) := (responseTree e).single ⟨d, 0, a⟩

/-! ## Specification -/

/-- A field of the binary form. -/
def encField (f : Bytes × Bytes) : Bytes := be16 f.1.length ++ f.1 ++ (be32 f.2.length ++ f.2)
def encFields (fs : List (Bytes × Bytes)) : Bytes := fs.flatMap encField

def nonEmpty (b : Bytes) : Option Bytes := if b = [] then none else some b

/-- The topic among the fields of the binary form: the first field of that meaning. -/
def fieldTopic (fs : List (Bytes × Bytes)) : Option Bytes := (fs.find? (fun f => f.1 = bs "topic" ∨ f.1 = bs "b")).bind (fun f => nonEmpty f.2)

/-- The topic of a JSON header. -/
def jsonTopic (h : Header) : Option Bytes := match (AMap.get h.ext (bs "topic")).bind nonEmpty with
  | some t => some t
  | none => (AMap.get h.ext (bs "b")).bind nonEmpty

/-- The binary form: 4 bytes length, 1, 3 bytes header length, then the fields in order. -/
def binary (len4 hlen3 : Bytes) (code : Nat) (lv : Bytes) (oid : Nat) (flag4 : Bytes) (remark : Nat) (ext : Nat) (rest : Bytes) : Bytes :=
  len4 ++ 1 :: hlen3 ++ be16 code ++ lv ++ be32 oid ++ flag4 ++ be32 remark ++ be32 ext ++ rest

/-- What a payload says: code, identification, remark, topic. -/
inductive Says (e : Env) : Bytes → Int → Int → Bytes → Option Bytes → Prop
  | json (len4 hb rest : Bytes) (h : Header) (hl : len4.length = 4) (hs : hb.length < 2 ^ 24) (hp : e.json hb = some h)
      (h29 : 29 ≤ (len4 ++ be32 hb.length ++ hb ++ rest).length) :
      Says e (len4 ++ be32 hb.length ++ hb ++ rest) h.code h.oid h.remark (jsonTopic h)
  | fields (len4 hlen3 lv flag4 : Bytes) (code oid : Nat) (fs : List (Bytes × Bytes)) (rest : Bytes)
      (h1 : len4.length = 4) (h2 : hlen3.length = 3) (h3 : lv.length = 3) (h4 : flag4.length = 4) (h5 : code < 2 ^ 16) (h6 : oid < 2 ^ 32)
      (hf : ∀ f ∈ fs, f.1.length < 2 ^ 15 ∧ f.2.length < 2 ^ 31) (hfs : (encFields fs).length < 2 ^ 31) :
      Says e (binary len4 hlen3 code lv oid flag4 0 (encFields fs).length (encFields fs ++ rest)) (signed 16 code) (signed 32 oid) [] (fieldTopic fs)

/-! ## The fields -/

theorem readBytes_exact (p v q : Bytes) : readBytes (p ++ v ++ q) p.length v.length = .ok (v, p.length + v.length) := by
  simp only [readBytes]
  rw [if_neg (by omega), if_neg (by simp; omega)]
  rw [show ((p.length : Int) + (v.length : Int)) = ((p.length + v.length : Nat) : Int) by omega, slice_nat]
  rfl

theorem readField_enc (pre post k v : Bytes) (hk : k.length < 2 ^ 15) (hv : v.length < 2 ^ 31) :
    readField (pre ++ (encField (k, v) ++ post)) pre.length = .ok (k.length, k, v.length, v, ((pre ++ encField (k, v)).length : Nat)) := by
  have r1 := readInt16_be k.length (by omega) pre (k ++ (be32 v.length ++ (v ++ post)))
  have r2 := readBytes_exact (pre ++ be16 k.length) k (be32 v.length ++ (v ++ post))
  have r3 := readInt32_be v.length (by omega) (pre ++ be16 k.length ++ k) (v ++ post)
  have r4 := readBytes_exact (pre ++ be16 k.length ++ k ++ be32 v.length) v post
  rw [signed_small (by simpa using hk)] at r1
  rw [signed_small (by simpa using hv)] at r3
  have e : pre ++ (encField (k, v) ++ post) = pre ++ (be16 k.length ++ (k ++ (be32 v.length ++ (v ++ post)))) := by simp [encField]
  have l : (pre ++ encField (k, v)).length = pre.length + 2 + k.length + 4 + v.length := by simp [encField, be16, be32]; omega
  rw [e, l]
  simp only [List.append_assoc] at r1 r2 r3 r4
  generalize pre ++ (be16 k.length ++ (k ++ (be32 v.length ++ (v ++ post)))) = d at *
  simp only [readField, r1, Res.bind_ok]
  rw [show (pre.length : Int) + 2 = ((pre ++ be16 k.length).length : Nat) by simp [be16], r2]
  simp only [Res.bind_ok]
  rw [show (((pre ++ be16 k.length).length : Nat) : Int) + k.length = ((pre ++ (be16 k.length ++ k)).length : Nat) by simp [be16]; omega, r3]
  simp only [Res.bind_ok]
  rw [show (((pre ++ (be16 k.length ++ k)).length : Nat) : Int) + 4 = ((pre ++ (be16 k.length ++ (k ++ be32 v.length))).length : Nat) by simp [be16, be32]; omega, r4]
  simp only [Res.bind_ok, Res.pure_eq]
  congr 5
  simp [be16, be32]; omega

/-- The topic in the map the loop has filled. -/
def mapTopic (m : AMap Bytes Bytes) : Option Bytes := match (AMap.get m tTopic).bind nonEmpty with
  | some t => some t
  | none => (AMap.get m tB).bind nonEmpty

theorem topic_ne_b : tTopic ≠ tB := by decide +kernel

theorem extLoop_fields (fs : List (Bytes × Bytes)) (hf : ∀ f ∈ fs, f.1.length < 2 ^ 15 ∧ f.2.length < 2 ^ 31) (extLen : Nat) (rest : Bytes) :
    ∀ (pre : Bytes) (fuel n : Nat) (m : AMap Bytes Bytes), pre.length = 29 + n → extLen = n + (encFields fs).length →
      (encFields fs).length ≤ fuel → AMap.get m tTopic = none → AMap.get m tB = none →
      ∃ m', extLoop (pre ++ (encFields fs ++ rest)) extLen fuel pre.length n m = .ok m' ∧ mapTopic m' = fieldTopic fs := by
  induction fs with
  | nil =>
    intro pre fuel n m hp he hfu h1 h2
    refine ⟨m, ?_, ?_⟩
    · have hc : ¬ ((n : Int) < extLen ∧ (n : Int) + 29 < ((pre ++ (encFields [] ++ rest)).length : Nat)) := by
        simp [encFields] at he; omega
      cases fuel <;> (rw [extLoop, if_neg hc])
    · simp [mapTopic, h1, h2, fieldTopic]
  | cons f fs ih =>
    intro pre fuel n m hp he hfu h1 h2
    obtain ⟨k, v⟩ := f
    obtain ⟨hk, hv⟩ := hf (k, v) (by simp)
    have hr := readField_enc pre (encFields fs ++ rest) k v hk hv
    have hl : (encFields ((k, v) :: fs)).length = (encField (k, v)).length + (encFields fs).length := by simp [encFields]
    have hfl : (encField (k, v)).length = 2 + k.length + 4 + v.length := by simp [encField, be16, be32]; omega
    have e : pre ++ (encFields ((k, v) :: fs) ++ rest) = pre ++ (encField (k, v) ++ (encFields fs ++ rest)) := by simp [encFields]
    have hlen : (pre ++ (encField (k, v) ++ (encFields fs ++ rest))).length = pre.length + (encField (k, v)).length + (encFields fs).length + rest.length := by
      simp; omega
    obtain ⟨fuel, rfl⟩ : ∃ j, fuel = j + 1 := ⟨fuel - 1, by omega⟩
    rw [e, extLoop, if_pos (by constructor <;> omega)]
    simp only [hr]
    have hft : ∀ l : List (Bytes × Bytes), fieldTopic l = (l.find? (fun f => f.1 = tTopic ∨ f.1 = tB)).bind (fun f => nonEmpty f.2) := fun _ => rfl
    by_cases hkk : k = tTopic ∨ k = tB
    · rw [if_pos hkk]
      refine ⟨_, rfl, ?_⟩
      simp only [hft, List.find?_cons, hkk, decide_true, Option.bind_some]
      rcases hkk with rfl | rfl
      · simp only [mapTopic, AMap.get_set_self, Option.bind_some]
        rw [AMap.get_set_ne m v topic_ne_b, h2]
        cases nonEmpty v <;> rfl
      · simp only [mapTopic, AMap.get_set_self, Option.bind_some]
        rw [AMap.get_set_ne m v (Ne.symm topic_ne_b), h1]
        rfl
    · rw [if_neg hkk]
      have hk1 : k ≠ tTopic := fun h => hkk (.inl h)
      have hk2 : k ≠ tB := fun h => hkk (.inr h)
      obtain ⟨m', g1, g2⟩ := ih (fun f hm => hf f (by simp [hm])) (pre ++ encField (k, v)) fuel (n + (encField (k, v)).length) (AMap.set m k v)
        (by simp; omega) (by omega) (by omega) (by rw [AMap.get_set_ne m v hk1, h1]) (by rw [AMap.get_set_ne m v hk2, h2])
      refine ⟨m', ?_, ?_⟩
      · rw [List.append_assoc] at g1
        rw [← g1]
        congr 1
        omega
      · rw [g2]
        simp [hft, hkk]

/-! ## Headers -/

/-- The fixed part of the binary form. -/
theorem binary_reads (len4 hlen3 lv flag4 rest : Bytes) (code oid remark ext : Nat)
    (h1 : len4.length = 4) (h2 : hlen3.length = 3) (h3 : lv.length = 3) (h4 : flag4.length = 4) (h5 : code < 2 ^ 16) (h6 : oid < 2 ^ 32)
    (h7 : remark < 2 ^ 32) (h8 : ext < 2 ^ 32) :
    let d := binary len4 hlen3 code lv oid flag4 remark ext rest
    idx d 4 = .ok 1 ∧ readInt16 d 8 = .ok (signed 16 code, 10) ∧ (∃ b, idx d 10 = .ok b) ∧ readInt32 d 13 = .ok (signed 32 oid, 17) ∧
    readInt32 d 21 = .ok (signed 32 remark, 25) ∧ readInt32 d 25 = .ok (signed 32 ext, 29) ∧ d.length = 29 + rest.length := by
  intro d
  have e : d = len4 ++ 1 :: (hlen3 ++ (be16 code ++ (lv ++ (be32 oid ++ (flag4 ++ (be32 remark ++ (be32 ext ++ rest))))))) := by
    simp [d, binary]
  have hl : d.length = 29 + rest.length := by rw [e]; simp [be16, be32, h1, h2, h3, h4]; omega
  have r0 := get_mid len4 1 (hlen3 ++ (be16 code ++ (lv ++ (be32 oid ++ (flag4 ++ (be32 remark ++ (be32 ext ++ rest))))))) 4 (by omega)
  have r1 := readInt16_be code h5 (len4 ++ 1 :: hlen3) (lv ++ (be32 oid ++ (flag4 ++ (be32 remark ++ (be32 ext ++ rest)))))
  have r2 := readInt32_be oid h6 (len4 ++ 1 :: (hlen3 ++ (be16 code ++ lv))) (flag4 ++ (be32 remark ++ (be32 ext ++ rest)))
  have r3 := readInt32_be remark h7 (len4 ++ 1 :: (hlen3 ++ (be16 code ++ (lv ++ (be32 oid ++ flag4))))) (be32 ext ++ rest)
  have r4 := readInt32_be ext h8 (len4 ++ 1 :: (hlen3 ++ (be16 code ++ (lv ++ (be32 oid ++ (flag4 ++ be32 remark)))))) rest
  simp only [List.append_assoc, List.cons_append] at r0 r1 r2 r3 r4
  rw [← e] at r0 r1 r2 r3 r4
  have l1 : (len4 ++ 1 :: hlen3).length = 8 := by simp [h1, h2]
  have l2 : (len4 ++ 1 :: (hlen3 ++ (be16 code ++ lv))).length = 13 := by simp [h1, h2, h3, be16]
  have l3 : (len4 ++ 1 :: (hlen3 ++ (be16 code ++ (lv ++ (be32 oid ++ flag4))))).length = 21 := by simp [h1, h2, h3, h4, be16, be32]
  have l4 : (len4 ++ 1 :: (hlen3 ++ (be16 code ++ (lv ++ (be32 oid ++ (flag4 ++ be32 remark)))))).length = 25 := by simp [h1, h2, h3, h4, be16, be32]
  rw [l1] at r1; rw [l2] at r2; rw [l3] at r3; rw [l4] at r4
  exact ⟨r0, r1, Http.idx_some (by omega) (by omega), r2, r3, r4, hl⟩

theorem jsonTopic_eq (h : Header) : jsonTopic h = mapTopic h.ext := rfl

theorem getHeader_says (e : Env) {d : Bytes} {code oid : Int} {remark : Bytes} {topic : Option Bytes} (h : Says e d code oid remark topic) :
    29 ≤ d.length ∧ ∃ hd, getHeader e d = .ok (some hd) ∧ hd.code = code ∧ hd.oid = oid ∧ hd.remark = remark ∧ mapTopic hd.ext = topic := by
  cases h with
  | json len4 hb rest h hl hs hp h29 =>
    refine ⟨h29, h, ?_, rfl, rfl, rfl, rfl⟩
    have r1 := readInt32_be hb.length (by omega) len4 (hb ++ rest)
    have r2 := readBytes_exact (len4 ++ be32 hb.length) hb rest
    have r0 : idx (len4 ++ be32 hb.length ++ hb ++ rest) 4 = .ok 0 := by
      have := get_mid len4 (UInt8.ofNat (hb.length / 16777216)) (UInt8.ofNat (hb.length / 65536 % 256) :: UInt8.ofNat (hb.length / 256 % 256) :: UInt8.ofNat (hb.length % 256) :: (hb ++ rest)) 4 (by omega)
      rw [show hb.length / 16777216 = 0 by omega] at this
      simpa [be32, show hb.length / 16777216 = 0 by omega] using this
    rw [signed_small (by simp; omega), hl] at r1
    rw [show (len4 ++ be32 hb.length).length = 8 by simp [hl, be32]] at r2
    rw [← List.append_assoc] at r1
    generalize len4 ++ be32 hb.length ++ hb ++ rest = d at *
    have r1' : readInt32 d 4 = .ok ((hb.length : Int), 8) := r1
    have r2' : readBytes d 8 hb.length = .ok (hb, 8 + hb.length) := r2
    simp [getHeader, r0, r1', orZero, r2', hp]
  | fields len4 hlen3 lv flag4 c o fs rest h1 h2 h3 h4 h5 h6 hf hfs =>
    obtain ⟨r0, r1, ⟨b, r2⟩, r3, r4, r5, rl⟩ := binary_reads len4 hlen3 lv flag4 (encFields fs ++ rest) c o 0 (encFields fs).length h1 h2 h3 h4 h5 h6 (by omega) (by omega)
    refine ⟨by rw [rl]; omega, ?_⟩
    have hex := extLoop_fields fs hf (encFields fs).length rest (len4 ++ 1 :: hlen3 ++ be16 c ++ lv ++ be32 o ++ flag4 ++ be32 0 ++ be32 (encFields fs).length)
      (29 + (encFields fs ++ rest).length) 0 [] (by simp [h1, h2, h3, h4, be16, be32]) (by simp) (by simp; omega) rfl rfl
    rw [show (len4 ++ 1 :: hlen3 ++ be16 c ++ lv ++ be32 o ++ flag4 ++ be32 0 ++ be32 (encFields fs).length).length = 29 by
      simp [h1, h2, h3, h4, be16, be32]] at hex
    obtain ⟨m', g1, g2⟩ := hex
    rw [signed_small (by simp)] at r4
    rw [signed_small (by simpa using hfs)] at r5
    change extLoop (binary len4 hlen3 c lv o flag4 0 (encFields fs).length (encFields fs ++ rest)) _ _ _ _ _ = _ at g1
    rw [← rl] at g1
    have g1' : extLoop (binary len4 hlen3 c lv o flag4 0 (encFields fs).length (encFields fs ++ rest)) ((encFields fs).length : Nat)
      (binary len4 hlen3 c lv o flag4 0 (encFields fs).length (encFields fs ++ rest)).length 29 0 [] = .ok m' := g1
    generalize binary len4 hlen3 c lv o flag4 0 (encFields fs).length (encFields fs ++ rest) = d at *
    by_cases h0 : (encFields fs).length = 0
    · have hfs0 : fs = [] := by
        cases fs with
        | nil => rfl
        | cons f r => simp [encFields, encField, be16] at h0
      refine ⟨⟨signed 16 c, signed 32 o, [], []⟩, ?_, rfl, rfl, rfl, ?_⟩
      · simp [getHeader, r0, parseHeader, r1, r2, r3, r4, r5, orZero, h0]
      · rw [hfs0]; rfl
    · refine ⟨⟨signed 16 c, signed 32 o, [], m'⟩, ?_, rfl, rfl, rfl, g2⟩
      simp only [getHeader, r0, parseHeader, r1, r2, r3, r4, r5, orZero, Res.bind_ok, g1', Res.pure_eq]
      rw [if_neg (by decide), if_pos trivial, if_pos ⟨by omega, rfl⟩]
      rfl

/-! ## C66: requests -/

/-- The content key the specification asks for. -/
def keyOf (e : Env) (code : Int) : Option Bytes → Bytes
  | some t => bs "Topic:" ++ t
  | none => e.requestMsg code

theorem bind_nonEmpty (o : Option Bytes) : o.bind nonEmpty = if o.getD [] = [] then none else some (o.getD []) := by
  cases o with
  | none => rfl
  | some b => simp [nonEmpty]

theorem requestKey_eq (e : Env) (h : Header) : requestKey e h = keyOf e h.code (mapTopic h.ext) := by
  simp only [requestKey, mapTopic, bind_nonEmpty, extGet]
  by_cases h1 : (AMap.get h.ext tTopic).getD [] = [] <;> by_cases h2 : (AMap.get h.ext tB).getD [] = [] <;> simp [h1, h2, keyOf]

theorem keys_differ : kRequestMsg ≠ kOpaque ∧ kRequestMsg ≠ kContentKey ∧ kOpaque ≠ kContentKey ∧ kErrCode ≠ kErrMsg ∧ kErrCode ≠ kIsError ∧ kErrCode ≠ kErrorType ∧
    kErrMsg ≠ kIsError ∧ kErrMsg ≠ kErrorType ∧ kIsError ≠ kErrorType := by decide +kernel

/-- C66: of every request, JSON or binary, the operation, the identification and the topic (or, without a topic, the
operation) are reported. -/
theorem rocketmq_request_parsed_partial (e : Env) {d : Bytes} {code oid : Int} {remark : Bytes} {topic : Option Bytes} (h : Says e d code oid remark topic) :
    ∃ m, parseRequest e d = .ok (true, m) ∧ AMap.get m.attrs (bs "rocketmq_opaque") = some (.int oid) ∧
      AMap.get m.attrs (bs "rocketmq_request_msg") = some (.str (e.requestMsg code)) ∧ AMap.get m.attrs (bs "content_key") = some (.str (keyOf e code topic)) ∧
      AMap.get m.attrs (bs "is_error") = none ∧ AMap.get m.attrs (bs "rocketmq_error_msg") = none ∧
      AMap.get m.attrs (bs "one_way") = none := by
  rw [show bs "content_key" = kContentKey from rfl, show bs "rocketmq_request_msg" = kRequestMsg from rfl, show bs "rocketmq_opaque" = kOpaque from rfl] at *
  obtain ⟨h29, hd, hg, rfl, rfl, hr, rfl⟩ := getHeader_says e h
  obtain ⟨k1, k2, k3, -⟩ := keys_differ
  refine ⟨(((Msg.mk d 0 []).add kRequestMsg (.str (e.requestMsg hd.code))).add kOpaque (.int hd.oid)).add kContentKey (.str (requestKey e hd)), ?_, ?_, ?_, ?_, ?_, ?_, ?_⟩
  · simp only [parseRequest, Tree.single, Tree.run, requestTree, fastFail, Res.pure_eq, Res.bind_ok, show ¬ d.length < 29 by omega, decide_false, Bool.false_eq_true,
      ↓reduceIte, requestParse, hg, Bool.not_true]
    rfl
  · simp only [Msg.add]; rw [AMap.get_set_ne _ _ (Ne.symm k3), AMap.get_set_self]
  · simp only [Msg.add]; rw [AMap.get_set_ne _ _ (Ne.symm k2), AMap.get_set_ne _ _ (Ne.symm k1), AMap.get_set_self]
  · simp only [Msg.add]; rw [AMap.get_set_self, requestKey_eq]
  · simp only [Msg.add]
    rw [AMap.get_set_ne _ _ (by decide +kernel), AMap.get_set_ne _ _ (by decide +kernel), AMap.get_set_ne _ _ (by decide +kernel)]; rfl
  · simp only [Msg.add]
    rw [AMap.get_set_ne _ _ (by decide +kernel), AMap.get_set_ne _ _ (by decide +kernel), AMap.get_set_ne _ _ (by decide +kernel)]; rfl
  · simp only [Msg.add]
    rw [AMap.get_set_ne _ _ (by decide +kernel), AMap.get_set_ne _ _ (by decide +kernel), AMap.get_set_ne _ _ (by decide +kernel)]; rfl

/-! ## C66, C24: responses -/

/-- The error text the specification asks for. -/
def textOf (e : Env) (code : Int) (remark : Bytes) : Bytes := match e.responseMsg code with
  | some t => t
  | none => if remark = [] then bs "error:response code is " ++ Dec.formatInt code else remark

theorem run_response (e : Env) {d : Bytes} {a : Attrs} {hd : Header} (h29 : 29 ≤ d.length) (hg : getHeader e d = .ok (some hd)) :
    parseResponse e d a = (do
      let ((ok, _), m) ← responseParse e ⟨d, 0, a⟩
      pure (ok, m)) := by
  simp only [parseResponse, Tree.single, Tree.run, responseTree, fastFail, Res.pure_eq, Res.bind_ok, show ¬ d.length < 29 by omega, decide_false, Bool.false_eq_true,
      ↓reduceIte, responseParse, hg]
  by_cases h : (!(Msg.mk d 0 a).has kOpaque || decide (getInt a kOpaque ≠ hd.oid)) = true
  · simp only [h, ↓reduceIte, Res.bind_ok, Bool.not_false]
    rfl
  · simp only [h, Bool.false_eq_true, ↓reduceIte]
    by_cases hc : hd.code > 0
    · simp only [hc, ↓reduceIte, Res.bind_ok, Bool.not_true, Bool.false_eq_true]
      rfl
    · simp only [hc, ↓reduceIte, Res.bind_ok, Bool.not_true, Bool.false_eq_true]
      rfl

/-- C66, C24: a response is accepted for a record that carries the same identification; its code is reported, and
the record is an error iff the code is positive. -/
theorem rocketmq_response_parsed (e : Env) {d : Bytes} {code oid : Int} {remark : Bytes} {topic : Option Bytes} (h : Says e d code oid remark topic)
    (a : Attrs) (ha : AMap.get a (bs "rocketmq_opaque") = some (.int oid)) :
    ∃ m, parseResponse e d a = .ok (true, m) ∧ AMap.get m.attrs (bs "rocketmq_error_code") = some (.int code) ∧
      AMap.get m.attrs (bs "is_error") = (if code > 0 then some (.bool true) else AMap.get a (bs "is_error")) ∧
      AMap.get m.attrs (bs "error_type") = (if code > 0 then some (.int 3) else AMap.get a (bs "error_type")) ∧
      AMap.get m.attrs (bs "rocketmq_error_msg") = (if code > 0 then some (.str (textOf e code remark)) else AMap.get a (bs "rocketmq_error_msg")) := by
  rw [show bs "rocketmq_opaque" = kOpaque from rfl, show bs "rocketmq_error_code" = kErrCode from rfl, show bs "rocketmq_error_msg" = kErrMsg from rfl, show bs "is_error" = kIsError from rfl, show bs "error_type" = kErrorType from rfl] at *
  obtain ⟨h29, hd, hg, rfl, rfl, rfl, rfl⟩ := getHeader_says e h
  obtain ⟨-, -, -, k4, k5, k6, k7, k8, k9⟩ := keys_differ
  rw [run_response e h29 hg]
  have hno : ¬ ((!(Msg.mk d 0 a).has kOpaque || decide (getInt a kOpaque ≠ hd.oid)) = true) := by
    simp [Msg.has, getInt, ha]
  simp only [responseParse, hg, Res.bind_ok]
  rw [if_neg hno]
  by_cases hc : hd.code > 0
  · simp only [hc, ↓reduceIte, Res.pure_eq, Res.bind_ok]
    refine ⟨_, rfl, ?_, ?_, ?_, ?_⟩
    · simp only [Msg.add]; rw [AMap.get_set_ne _ _ (Ne.symm k6), AMap.get_set_ne _ _ (Ne.symm k5), AMap.get_set_ne _ _ (Ne.symm k4), AMap.get_set_self]
    · simp only [Msg.add]; rw [AMap.get_set_ne _ _ (Ne.symm k9), AMap.get_set_self]
    · simp only [Msg.add]; rw [AMap.get_set_self]
    · simp only [Msg.add]; rw [AMap.get_set_ne _ _ (Ne.symm k8), AMap.get_set_ne _ _ (Ne.symm k7), AMap.get_set_self]
      simp only [errText, textOf]
      split
      · rfl
      · by_cases hr : hd.remark = [] <;> simp [hr]
  · simp only [hc, ↓reduceIte, Res.pure_eq, Res.bind_ok]
    refine ⟨_, rfl, ?_, ?_, ?_, ?_⟩
    · simp only [Msg.add]; rw [AMap.get_set_self]
    · simp only [Msg.add]; rw [AMap.get_set_ne _ _ k5]
    · simp only [Msg.add]; rw [AMap.get_set_ne _ _ k6]
    · simp only [Msg.add]; rw [AMap.get_set_ne _ _ k4]

/-- C66: the response is matched with its request: after a request with identification `o`, a response is accepted iff
it has the same identification. -/
theorem rocketmq_matched (e : Env) {d d' : Bytes} {code code' oid oid' : Int} {remark remark' : Bytes} {topic topic' : Option Bytes}
    (h : Says e d code oid remark topic) (h' : Says e d' code' oid' remark' topic') {m : Msg} (hm : parseRequest e d = .ok (true, m)) :
    (∃ m', parseResponse e d' m.attrs = .ok (true, m')) ↔ oid' = oid := by
  obtain ⟨m2, g1, g2, -⟩ := rocketmq_request_parsed_partial e h
  rw [show bs "rocketmq_opaque" = kOpaque from rfl] at g2
  rw [hm] at g1
  obtain rfl : m = m2 := by injection g1 with g; exact (Prod.ext_iff.1 g).2
  constructor
  · rintro ⟨m', hm'⟩
    obtain ⟨h29, hd, hg, rfl, rfl, rfl, rfl⟩ := getHeader_says e h'
    rw [run_response e h29 hg] at hm'
    simp only [responseParse, hg, Res.bind_ok] at hm'
    by_cases hq : hd.oid = oid
    · exact hq
    · exfalso
      have : (!(Msg.mk d' 0 m.attrs).has kOpaque || decide (getInt m.attrs kOpaque ≠ hd.oid)) = true := by
        simp only [getInt, g2]; simp [Ne.symm hq]
      rw [if_pos this] at hm'
      simp at hm'
  · rintro rfl
    obtain ⟨m', hm', -⟩ := rocketmq_response_parsed e h' m.attrs g2
    exact ⟨m', hm'⟩

/-- Finding: if a binary request has a remark, its topic is not reported. -/
theorem remark_hides_topic (e : Env) (len4 hlen3 lv flag4 rest : Bytes) (code oid remark ext : Nat)
    (h1 : len4.length = 4) (h2 : hlen3.length = 3) (h3 : lv.length = 3) (h4 : flag4.length = 4) (h5 : code < 2 ^ 16) (h6 : oid < 2 ^ 32)
    (h7 : 0 < remark) (h7' : remark < 2 ^ 31) (h8 : ext < 2 ^ 32) :
    ∃ m, parseRequest e (binary len4 hlen3 code lv oid flag4 remark ext rest) = .ok (true, m) ∧
      AMap.get m.attrs kContentKey = some (.str (e.requestMsg (signed 16 code))) := by
  obtain ⟨r0, r1, ⟨b, r2⟩, r3, r4, r5, rl⟩ := binary_reads len4 hlen3 lv flag4 rest code oid remark ext h1 h2 h3 h4 h5 h6 (by omega) h8
  generalize binary len4 hlen3 code lv oid flag4 remark ext rest = d at *
  rw [signed_small (by simpa using h7')] at r4
  have hg : getHeader e d = .ok (some ⟨signed 16 code, signed 32 oid, [], []⟩) := by
    simp only [getHeader, r0, parseHeader, r1, r2, r3, r4, r5, orZero, Res.bind_ok, Res.pure_eq]
    rw [if_neg (by decide), if_pos trivial, if_neg (by omega)]
    rfl
  refine ⟨(((Msg.mk d 0 []).add kRequestMsg (.str (e.requestMsg (signed 16 code)))).add kOpaque (.int (signed 32 oid))).add kContentKey
    (.str (requestKey e ⟨signed 16 code, signed 32 oid, [], []⟩)), ?_, ?_⟩
  · simp only [parseRequest, Tree.single, Tree.run, requestTree, fastFail, Res.pure_eq, Res.bind_ok, show ¬ d.length < 29 by omega, decide_false, Bool.false_eq_true,
      ↓reduceIte, requestParse, hg, Bool.not_true]
    rfl
  · simp only [Msg.add]; rw [AMap.get_set_self]; rfl

/-! ## C21 -/

theorem readField_ok (d : Bytes) (off : Int) : readField d off = .err ∨
    ∃ kl k vl v o, readField d off = .ok (kl, k, vl, v, o) ∧ 0 ≤ kl ∧ 0 ≤ vl := by
  have hneg : ∀ (o l : Int) (x : Bytes × Int), readBytes d o l = .ok x → 0 ≤ l := by
    intro o l x hx
    simp only [readBytes] at hx
    by_cases hc : o < 0 ∨ l < 0
    · simp [hc] at hx
    · omega
  simp only [readField]
  rcases (number_readers_safe d off false).1 with h | ⟨kl, o1, h, -⟩
  · simp [h]
  · simp only [h, Res.bind_ok]
    rcases (string_readers_safe d o1 kl false).1 with h2 | ⟨k, o2, h2, -⟩
    · simp [h2]
    · simp only [h2, Res.bind_ok]
      rcases (number_readers_safe d o2 false).2.1 with h3 | ⟨vl, o3, h3, -⟩
      · simp [h3]
      · simp only [h3, Res.bind_ok]
        rcases (string_readers_safe d o3 vl false).1 with h4 | ⟨v, o4, h4, -⟩
        · simp [h4]
        · right
          exact ⟨kl, k, vl, v, o4, by simp [h4], hneg _ _ _ h2, hneg _ _ _ h4⟩

theorem extLoop_ok (d : Bytes) (extLen : Int) : ∀ (fuel : Nat) (off n : Int) (m : AMap Bytes Bytes), (d.length : Int) ≤ n + fuel →
    ∃ m', extLoop d extLen fuel off n m = .ok m' := by
  intro fuel
  induction fuel with
  | zero =>
    intro off n m h
    rw [extLoop, if_neg (by omega)]
    exact ⟨_, rfl⟩
  | succ fuel ih =>
    intro off n m h
    rw [extLoop]
    split
    · rcases readField_ok d off with h1 | ⟨kl, k, vl, v, o, h1, h2, h3⟩
      · simp [h1]
      · simp only [h1]
        split
        · exact ⟨_, rfl⟩
        · exact ih _ _ _ (by omega)
    · exact ⟨_, rfl⟩

theorem orZero_ok {d : Bytes} {off : Int} {r : Res (Int × Int)} (h : SafeNum d off r) : ∃ v, orZero r = .ok v := by
  rcases h with h | ⟨v, o, h, -⟩ <;> simp [h, orZero]

theorem getHeader_ok (e : Env) (d : Bytes) (h29 : 29 ≤ d.length) : ∃ h, getHeader e d = .ok h := by
  obtain ⟨t, ht⟩ := Http.idx_some (d := d) (i := 4) (by omega) (by omega)
  obtain ⟨l, hl⟩ := Http.idx_some (d := d) (i := 10) (by omega) (by omega)
  simp only [getHeader, ht, Res.bind_ok]
  split
  · obtain ⟨v, hv⟩ := orZero_ok (number_readers_safe d 4 false).2.1
    simp only [hv, Res.bind_ok]
    rcases (string_readers_safe d 8 v false).1 with h2 | ⟨k, o2, h2, -⟩ <;> simp [h2]
  · split
    · obtain ⟨v1, h1⟩ := orZero_ok (number_readers_safe d 8 false).1
      obtain ⟨v2, h2⟩ := orZero_ok (number_readers_safe d 13 false).2.1
      obtain ⟨v3, h3⟩ := orZero_ok (number_readers_safe d 21 false).2.1
      obtain ⟨v4, h4⟩ := orZero_ok (number_readers_safe d 25 false).2.1
      simp only [parseHeader, h1, h2, h3, h4, hl, Res.bind_ok]
      split
      · generalize (match readInt32 d 25 with | .ok (_, o) => o | _ => -1 : Int) = off
        obtain ⟨m', hm⟩ := extLoop_ok d v4 d.length off 0 [] (by omega)
        simp [hm]
      · exact ⟨_, rfl⟩
    · exact ⟨_, rfl⟩

/-- C21, RocketMQ: no payload makes the parsers panic, and the loop over the fields ends. -/
theorem rocketmq_never_panics (e : Env) (d : Bytes) (a : Attrs) : (∃ r, parseRequest e d = .ok r) ∧ ∃ r, parseResponse e d a = .ok r := by
  constructor
  · apply Dubbo.single_ok _ _ rfl ⟨_, rfl⟩
    intro h
    have h29 : 29 ≤ d.length := by
      simp only [requestTree, fastFail, Res.pure_eq, Res.ok.injEq, decide_eq_false_iff_not] at h; omega
    obtain ⟨hd, hh⟩ := getHeader_ok e d h29
    simp only [requestTree, requestParse, hh, Res.bind_ok]
    cases hd <;> exact ⟨_, rfl⟩
  · apply Dubbo.single_ok _ _ rfl ⟨_, rfl⟩
    intro h
    have h29 : 29 ≤ d.length := by
      simp only [responseTree, fastFail, Res.pure_eq, Res.ok.injEq, decide_eq_false_iff_not] at h; omega
    obtain ⟨hd, hh⟩ := getHeader_ok e d h29
    simp only [responseTree, responseParse, hh, Res.bind_ok]
    cases hd with
    | none => exact ⟨_, rfl⟩
    | some h =>
      simp only
      split
      · exact ⟨_, rfl⟩
      · split <;> exact ⟨_, rfl⟩

/-! ## Samples -/

example (e : Env) : ∃ d, Says e d 310 7 [] (some (bs "orders")) :=
  ⟨_, .fields [0, 0, 0, 99] [0, 0, 50] [0, 1, 2] [0, 0, 0, 0] 310 7 [(bs "a", bs "x"), (bs "b", bs "orders")] [1, 2] rfl rfl rfl rfl (by decide) (by decide)
    (by decide +kernel) (by decide +kernel)⟩

/-- What no header can be read of: another serialization than JSON (0) and the binary form (1), or a JSON text that is cut or
does not decode. -/
inductive Unreadable (e : Env) : Bytes → Prop
  | other (d : Bytes) (t : UInt8) (h29 : 29 ≤ d.length) (ht : d[4]? = some t) (h0 : t ≠ 0) (h1 : t ≠ 1) : Unreadable e d
  | json (len4 hb rest : Bytes) (h4 : len4.length = 4) (hl : hb.length < 2 ^ 24) (h29 : 29 ≤ (len4 ++ be32 hb.length ++ hb ++ rest).length)
      (hj : e.json hb = none) : Unreadable e (len4 ++ be32 hb.length ++ hb ++ rest)

theorem getHeader_unreadable (e : Env) {d : Bytes} (h : Unreadable e d) : 29 ≤ d.length ∧ getHeader e d = .ok none := by
  cases h with
  | other _ t h29 ht h0 h1 =>
    refine ⟨h29, ?_⟩
    simp only [getHeader]
    rw [show idx d 4 = .ok t from idx_nat (i := 4) ht]
    simp only [Res.bind_ok, h0, h1, ↓reduceIte, Res.pure_eq]
  | json len4 hb rest h4 hl h29 hj =>
    refine ⟨h29, ?_⟩
    have r1 := readInt32_be hb.length (by omega) len4 (hb ++ rest)
    have r2 := readBytes_exact (len4 ++ be32 hb.length) hb rest
    have r0 : idx (len4 ++ be32 hb.length ++ hb ++ rest) 4 = .ok 0 := by
      have := get_mid len4 (UInt8.ofNat (hb.length / 16777216)) (UInt8.ofNat (hb.length / 65536 % 256) :: UInt8.ofNat (hb.length / 256 % 256) :: UInt8.ofNat (hb.length % 256) :: (hb ++ rest)) 4 (by omega)
      rw [show hb.length / 16777216 = 0 by omega] at this
      simpa [be32, show hb.length / 16777216 = 0 by omega] using this
    rw [signed_small (by simp; omega), h4] at r1
    rw [show (len4 ++ be32 hb.length).length = 8 by simp [h4, be32]] at r2
    rw [← List.append_assoc] at r1
    generalize len4 ++ be32 hb.length ++ hb ++ rest = d at *
    have r1' : readInt32 d 4 = .ok ((hb.length : Int), 8) := r1
    have r2' : readBytes d 8 hb.length = .ok (hb, 8 + hb.length) := r2
    simp [getHeader, r0, r1', orZero, r2', hj]

/-- C66: a payload no header can be read of is neither a request nor a response, and leaves the attributes as they are. -/
theorem rocketmq_unreadable_refused (e : Env) {d : Bytes} (h : Unreadable e d) (a : Attrs) :
    (∃ m, parseRequest e d = .ok (false, m) ∧ m.attrs = []) ∧ ∃ m, parseResponse e d a = .ok (false, m) ∧ m.attrs = a := by
  obtain ⟨h29, hg⟩ := getHeader_unreadable e h
  refine ⟨⟨⟨d, 0, []⟩, ?_, rfl⟩, ⟨d, 0, a⟩, ?_, rfl⟩
  · simp [parseRequest, Tree.single, Tree.run, requestTree, fastFail, show ¬ d.length < 29 by omega, requestParse, hg]
  · simp [parseResponse, Tree.single, Tree.run, responseTree, fastFail, show ¬ d.length < 29 by omega, responseParse, hg]

example (e : Env) : Unreadable e (List.replicate 29 2) := .other _ 2 (by simp) rfl (by decide) (by decide)

end Kindling.Proto.Rocketmq
