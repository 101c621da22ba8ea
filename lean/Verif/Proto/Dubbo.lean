import Verif.Proto.Http
/-
Model of collector/pkg/component/analyzer/network/protocol/dubbo.
Properties C24 (status), C65 (service and method), and the Dubbo part of C21.
-/
namespace Kindling.Proto.Dubbo
open Kindling Kindling.Agg Kindling.Proto

def kContentKey : Bytes := bs "content_key"
def kErrCode : Bytes := bs "dubbo_error_code"
def kIsError : Bytes := bs "is_error"
def kErrorType : Bytes := bs "error_type"

/-! ## Serialised strings -/

/-- dubbo_serialize.go:39-55 `dubboHessian.eatString`. -/
def hEat (d : Bytes) (off : Nat) : Res Nat :=
  if off ≥ d.length then pure d.length
  else do
    let tag ← idx d off
    if 0x30 ≤ tag ∧ tag ≤ 0x33 then
      if off + 1 = d.length then pure d.length
      else do
        let b ← idx d (off + 1 : Nat)
        pure (off + 2 + ((tag - 0x30).toNat <<< 8) + b.toNat)
    else pure (off + 1 + tag.toNat)

/-- dubbo_serialize.go:77-80: the text, cut at the end of the payload. -/
def hTake (d : Bytes) (off len : Nat) : Res (Nat × Bytes) :=
  if off + len ≥ d.length then do
    let s ← slice d off d.length
    pure (d.length, s)
  else do
    let s ← slice d off (off + len : Nat)
    pure (off + len, s)

/-- dubbo_serialize.go:57-81 `dubboHessian.getStringValue`. -/
def hStr (d : Bytes) (off : Nat) : Res (Nat × Bytes) :=
  if off ≥ d.length then pure (d.length, [])
  else do
    let tag ← idx d off
    if 0x30 ≤ tag ∧ tag ≤ 0x33 then
      if off + 1 = d.length then pure (d.length, [])
      else do
        let b ← idx d (off + 1 : Nat)
        hTake d (off + 2) (((tag - 0x30).toNat <<< 8) + b.toNat)
    else hTake d (off + 1) tag.toNat

/-- The position of the first line feed. -/
def findNl : Bytes → Option Nat
  | [] => none
  | b :: r => if b = 10 then some 0 else (findNl r).map (· + 1)

/-- dubbo_serialize.go:113-130 `dubboFastJson.eatString`. -/
def jEat (d : Bytes) (off : Nat) : Res Nat :=
  if off ≥ d.length then pure d.length
  else match findNl (d.drop (off + 1)) with
    | some j => pure (off + 1 + j + 1)
    | none => pure d.length

/-- dubbo_serialize.go:132-149 `dubboFastJson.getStringValue`. -/
def jStr (d : Bytes) (off : Nat) : Res (Nat × Bytes) :=
  if off ≥ d.length then pure (d.length, [])
  else match findNl (d.drop (off + 1)) with
    | some j => do
      let s ← slice d (off + 1 : Nat) ((off + 1 + j : Nat) - 1 : Int)
      pure (off + 1 + j + 1, s)
    | none => pure (d.length, [])

/-- dubbo_request.go:49-65 with one serializer. -/
def serviceMethod (eat : Bytes → Nat → Res Nat) (str : Bytes → Nat → Res (Nat × Bytes)) (d : Bytes) : Res Bytes := do
  let o ← eat d 16
  let (o, service) ← str d o
  let o ← eat d o
  let (_, method) ← str d o
  pure (service ++ 35 :: method)

/-- dubbo_request.go:26-66 `getContentKey`; the empty text rejects the payload. -/
def contentKey (d : Bytes) : Res Bytes := do
  let f ← idx d 2
  let serial := f &&& 0x1f
  if serial = 0 then pure []
  else if f &&& 0x20 ≠ 0 then pure (bs "Heartbeat")
  else if f &&& 0x80 = 0 then pure []
  else if f &&& 0x40 = 0 then pure (bs "Oneway")
  else if serial = 2 then serviceMethod hEat hStr d
  else if serial = 6 then serviceMethod jEat jStr d
  else pure (bs "UnSupportSerialFormat")

/-- dubbo_request.go:8-12, dubbo_response.go:8-12. -/
def fastFail : FastFail := fun m =>
  if m.data.length < 16 then pure true
  else do
    let a ← idx m.data 0
    if a ≠ 0xda then pure true
    else do
      let b ← idx m.data 1
      pure (decide (b ≠ 0xbb))

/-- dubbo_request.go:14-24 `parseDubboRequest`. -/
def requestParse : ParseFn := fun m => do
  let k ← contentKey m.data
  if k = [] then pure ((false, true), m)
  else pure ((true, true), m.add kContentKey (.str k))

/-- dubbo_response.go:30-44 `getErrorCode`. -/
def errorCode (d : Bytes) : Res Int := do
  let f ← idx d 2
  if f &&& 0x1f = 0 then pure (-1)
  else if f &&& 0x20 ≠ 0 then pure 20
  else if f &&& 0x80 ≠ 0 then pure (-1)
  else do
    let s ← idx d 3
    pure (s.toNat : Int)

/-- dubbo_response.go:14-28 `parseDubboResponse`. -/
def responseParse : ParseFn := fun m => do
  let c ← errorCode m.data
  if c = -1 then pure ((false, true), m)
  else
    let m1 := m.add kErrCode (.int c)
    if c > 20 then pure ((true, true), (m1.add kIsError (.bool true)).add kErrorType (.int 3))
    else pure ((true, true), m1)

/-- dubbo_parser.go:22-26. -/
def requestTree : Tree := ⟨fastFail, requestParse, []⟩
def responseTree : Tree := ⟨fastFail, responseParse, []⟩

def parseRequest (d : Bytes) : Res (Bool × Msg) := requestTree.single ⟨d, 0, []⟩
def parseResponse (d : Bytes) (a : Attrs) : Res (Bool × Msg) := responseTree.single ⟨d, 0, a⟩

/-! ## Specification -/

/-- A Dubbo header: 16 bytes, magic number, flags, status, then id and length. -/
def header (flags status : UInt8) (rest : Bytes) : Bytes := 0xda :: 0xbb :: flags :: status :: rest

/-- Hessian 2 string of fewer than 1024 one-byte characters. -/
def hessian (s : Bytes) : Bytes :=
  if s.length < 32 then UInt8.ofNat s.length :: s
  else UInt8.ofNat (0x30 + s.length / 256) :: UInt8.ofNat (s.length % 256) :: s

/-- A JSON string and a line feed. -/
def json (s : Bytes) : Bytes := 34 :: s ++ [34, 10]

/-! ## Strings -/

theorem tag_short {n : Nat} (h : n < 32) : ¬ (0x30 ≤ UInt8.ofNat n ∧ UInt8.ofNat n ≤ 0x33) ∧ (UInt8.ofNat n).toNat = n := by
  have e := ofNat_toNat (n := n) (by omega)
  refine ⟨?_, e⟩
  rintro ⟨h1, _⟩
  rw [UInt8.le_iff_toNat_le, e] at h1
  simp at h1; omega

theorem tag_long {n : Nat} (h : n < 4) : (0x30 ≤ UInt8.ofNat (0x30 + n) ∧ UInt8.ofNat (0x30 + n) ≤ 0x33) ∧ (UInt8.ofNat (0x30 + n) - 0x30).toNat = n := by
  have : ∀ n, n < 4 → (0x30 ≤ UInt8.ofNat (0x30 + n) ∧ UInt8.ofNat (0x30 + n) ≤ 0x33) ∧ (UInt8.ofNat (0x30 + n) - 0x30).toNat = n := by decide
  exact this n h

theorem hTake_exact (pre s post : Bytes) : hTake (pre ++ (s ++ post)) pre.length s.length = .ok (pre.length + s.length, s) := by
  have h1 := slice_nat pre s post
  rw [List.append_assoc] at h1
  simp only [hTake]
  split
  · rename_i h
    have : post = [] := by
      simp at h; exact List.length_eq_zero_iff.1 (by omega)
    subst this
    have e : (((pre ++ (s ++ [])).length : Nat) : Int) = ((pre.length + s.length : Nat) : Int) := by simp
    rw [e, h1]
    simp
  · rw [h1]; simp

theorem hessian_read (pre s post : Bytes) (h : s.length < 1024) :
    hEat (pre ++ (hessian s ++ post)) pre.length = .ok (pre.length + (hessian s).length) ∧
    hStr (pre ++ (hessian s ++ post)) pre.length = .ok (pre.length + (hessian s).length, s) := by
  simp only [hessian]
  split
  · rename_i hs
    obtain ⟨t1, t2⟩ := tag_short hs
    have hi : idx (pre ++ (UInt8.ofNat s.length :: s ++ post)) (pre.length : Nat) = .ok (UInt8.ofNat s.length) := get_mid pre _ (s ++ post) _ rfl
    have ht := hTake_exact (pre ++ [UInt8.ofNat s.length]) s post
    rw [List.append_assoc, List.singleton_append] at ht
    have hl : ¬ pre.length ≥ (pre ++ (UInt8.ofNat s.length :: s ++ post)).length := by simp
    simp only [List.cons_append] at *
    generalize pre ++ UInt8.ofNat s.length :: (s ++ post) = d at *
    simp only [hEat, hStr, if_neg hl, hi, Res.bind_ok, if_neg t1, t2]
    constructor
    · simp; omega
    · have e : (pre ++ [UInt8.ofNat s.length]).length = pre.length + 1 := by simp
      rw [e] at ht
      rw [ht]
      simp; omega
  · rename_i hs
    obtain ⟨t1, t2⟩ := tag_long (n := s.length / 256) (by omega)
    have t3 : (UInt8.ofNat (s.length % 256)).toNat = s.length % 256 := ofNat_toNat (by omega)
    generalize ha : UInt8.ofNat (0x30 + s.length / 256) = a at *
    generalize hb : UInt8.ofNat (s.length % 256) = b at *
    have hi : idx (pre ++ (a :: b :: s ++ post)) (pre.length : Nat) = .ok a := get_mid pre _ (b :: s ++ post) _ rfl
    have hi2 : idx (pre ++ (a :: b :: s ++ post)) ((pre.length + 1 : Nat) : Int) = .ok b := by
      have := get_mid (pre ++ [a]) b (s ++ post) ((pre.length + 1 : Nat) : Int) (by simp)
      simpa using this
    have ht := hTake_exact (pre ++ [a, b]) s post
    have e2 : pre ++ [a, b] ++ (s ++ post) = pre ++ (a :: b :: s ++ post) := by simp
    rw [e2] at ht
    have hl : ¬ pre.length ≥ (pre ++ (a :: b :: s ++ post)).length := by simp
    have hl2 : ¬ pre.length + 1 = (pre ++ (a :: b :: s ++ post)).length := by simp
    have hsum : ((a - 0x30).toNat <<< 8) + b.toNat = s.length := by rw [t2, t3, Nat.shiftLeft_eq]; omega
    generalize pre ++ (a :: b :: s ++ post) = d at *
    simp only [hEat, hStr, if_neg hl, hi, Res.bind_ok, if_pos t1, if_neg hl2, hi2]
    rw [show pre.length + 2 + (a - 0x30).toNat <<< 8 + b.toNat = pre.length + 2 + ((a - 0x30).toNat <<< 8 + b.toNat) by omega, hsum]
    constructor
    · simp; omega
    · have e : (pre ++ [a, b]).length = pre.length + 2 := by simp
      rw [e] at ht
      rw [ht]
      simp; omega

theorem findNl_append {s t : Bytes} (h : (10 : UInt8) ∉ s) : findNl (s ++ 10 :: t) = some s.length := by
  induction s with
  | nil => simp [findNl]
  | cons b r ih =>
    have hb : b ≠ 10 := fun e => h (by simp [e])
    simp [findNl, hb, ih (fun hr => h (by simp [hr]))]

theorem json_read (pre s post : Bytes) (h : (10 : UInt8) ∉ s) :
    jEat (pre ++ (json s ++ post)) pre.length = .ok (pre.length + (json s).length) ∧
    jStr (pre ++ (json s ++ post)) pre.length = .ok (pre.length + (json s).length, s) := by
  have e : pre ++ (json s ++ post) = (pre ++ [34]) ++ ((s ++ [34]) ++ 10 :: post) := by simp [json]
  have hf : findNl ((pre ++ (json s ++ post)).drop (pre.length + 1)) = some (s.length + 1) := by
    rw [e]
    have : pre.length + 1 = (pre ++ [(34 : UInt8)]).length := by simp
    rw [this, List.drop_left, findNl_append (by simp [h])]
    simp
  have hsl := slice_nat (pre ++ [34]) s (34 :: 10 :: post)
  rw [show pre ++ [34] ++ s ++ 34 :: 10 :: post = pre ++ (json s ++ post) by simp [json]] at hsl
  have hl : ¬ pre.length ≥ (pre ++ (json s ++ post)).length := by simp [json]
  have hj : (json s).length = s.length + 3 := by simp [json]
  generalize pre ++ (json s ++ post) = d at *
  constructor
  · simp only [jEat, if_neg hl, hf, hj, Res.pure_eq]
    congr 1; omega
  · simp only [jStr, if_neg hl, hf, hj]
    have e1 : (pre ++ [(34 : UInt8)]).length = pre.length + 1 := by simp
    rw [e1] at hsl
    rw [show ((pre.length + 1 + (s.length + 1) : Nat) : Int) - 1 = ((pre.length + 1 + s.length : Nat) : Int) by omega, hsl]
    simp only [Res.bind_ok, Res.pure_eq]
    congr 2; omega

/-! ## Requests (C65) -/

theorem service_method (enc : Bytes → Bytes) (eat : Bytes → Nat → Res Nat) (str : Bytes → Nat → Res (Nat × Bytes)) (P : Bytes → Prop)
    (hr : ∀ pre s post, P s → eat (pre ++ (enc s ++ post)) pre.length = .ok (pre.length + (enc s).length) ∧
      str (pre ++ (enc s ++ post)) pre.length = .ok (pre.length + (enc s).length, s))
    (hd v service sv method rest : Bytes) (h16 : hd.length = 16) (hv : P v) (hs : P service) (hsv : P sv) (hm : P method) :
    serviceMethod eat str (hd ++ (enc v ++ (enc service ++ (enc sv ++ (enc method ++ rest))))) = .ok (service ++ 35 :: method) := by
  have r1 := (hr hd v (enc service ++ (enc sv ++ (enc method ++ rest))) hv).1
  have r2 := (hr (hd ++ enc v) service (enc sv ++ (enc method ++ rest)) hs).2
  have r3 := (hr (hd ++ enc v ++ enc service) sv (enc method ++ rest) hsv).1
  have r4 := (hr (hd ++ enc v ++ enc service ++ enc sv) method rest hm).2
  simp only [List.append_assoc] at r2 r3 r4
  rw [h16] at r1
  generalize hd ++ (enc v ++ (enc service ++ (enc sv ++ (enc method ++ rest)))) = d at *
  simp only [List.length_append, h16, ← Nat.add_assoc] at r2 r3 r4
  simp [serviceMethod, r1, r2, r3, r4]

theorem header_reads (flags status : UInt8) (rest body : Bytes) (h : rest.length = 12) :
    (header flags status rest).length = 16 ∧ idx (header flags status rest ++ body) 0 = .ok 0xda ∧ idx (header flags status rest ++ body) 1 = .ok 0xbb ∧
    idx (header flags status rest ++ body) 2 = .ok flags ∧ idx (header flags status rest ++ body) 3 = .ok status ∧
    ¬ (header flags status rest ++ body).length < 16 := by
  refine ⟨by simp [header, h], rfl, rfl, rfl, rfl, by simp [header, h]⟩

theorem request_of_key {d k : Bytes} (h16 : ¬ d.length < 16) (h0 : idx d 0 = .ok 0xda) (h1 : idx d 1 = .ok 0xbb) (hk : contentKey d = .ok k) (hne : k ≠ []) :
    parseRequest d = .ok (true, (Msg.mk d 0 []).add kContentKey (.str k)) := by
  simp only [parseRequest, Tree.single, Tree.run, requestTree, fastFail, if_neg h16, h0, h1, Res.bind_ok, Res.pure_eq, ne_eq, not_true_eq_false, ↓reduceIte,
    decide_false, Bool.false_eq_true, requestParse, hk, if_neg hne, Bool.not_true]
  rfl

/-- C65: of every two-way request in Hessian 2 or JSON serialisation the service and the method are reported. -/
theorem dubbo_request_parsed (flags status : UInt8) (hrest v service sv method rest : Bytes) (h12 : hrest.length = 12)
    (hreq : flags &&& 0x80 ≠ 0) (htwo : flags &&& 0x40 ≠ 0) (hev : flags &&& 0x20 = 0)
    (enc : Bytes → Bytes)
    (henc : (flags &&& 0x1f = 2 ∧ enc = hessian ∧ ∀ s ∈ [v, service, sv, method], s.length < 1024) ∨
      (flags &&& 0x1f = 6 ∧ enc = json ∧ ∀ s ∈ [v, service, sv, method], (10 : UInt8) ∉ s)) :
    ∃ m, parseRequest (header flags status hrest ++ (enc v ++ (enc service ++ (enc sv ++ (enc method ++ rest))))) = .ok (true, m) ∧
      AMap.get m.attrs (bs "content_key") = some (.str (service ++ 35 :: method)) ∧ AMap.get m.attrs (bs "is_error") = none ∧
      AMap.get m.attrs (bs "one_way") = none := by
  rw [show bs "content_key" = kContentKey from rfl] at *
  obtain ⟨g1, g2, g3, g4, g5, g6⟩ := header_reads flags status hrest (enc v ++ (enc service ++ (enc sv ++ (enc method ++ rest)))) h12
  have hk : contentKey (header flags status hrest ++ (enc v ++ (enc service ++ (enc sv ++ (enc method ++ rest))))) = .ok (service ++ 35 :: method) := by
    rcases henc with ⟨e1, e2, e3⟩ | ⟨e1, e2, e3⟩
    · have := service_method enc hEat hStr (fun s => s.length < 1024) (by subst e2; exact fun pre s post hs => hessian_read pre s post hs)
        (header flags status hrest) v service sv method rest g1 (e3 v (by simp)) (e3 service (by simp)) (e3 sv (by simp)) (e3 method (by simp))
      simp only [contentKey, g4, Res.bind_ok, e1, hev, if_neg hreq, if_neg htwo, this]
      simp
    · have := service_method enc jEat jStr (fun s => (10 : UInt8) ∉ s) (by subst e2; exact fun pre s post hs => json_read pre s post hs)
        (header flags status hrest) v service sv method rest g1 (e3 v (by simp)) (e3 service (by simp)) (e3 sv (by simp)) (e3 method (by simp))
      simp only [contentKey, g4, Res.bind_ok, e1, hev, if_neg hreq, if_neg htwo, this]
      simp
  exact ⟨_, request_of_key g6 g2 g3 hk (by simp), by simp only [Msg.add]; rw [AMap.get_set_self],
    by simp only [Msg.add]; rw [AMap.get_set_ne _ _ (by decide +kernel)]; rfl,
    by simp only [Msg.add]; rw [AMap.get_set_ne _ _ (by decide +kernel)]; rfl⟩

/-! ## Responses (C24) -/

theorem keys_differ : kErrCode ≠ kIsError ∧ kErrCode ≠ kErrorType ∧ kIsError ≠ kErrorType := by decide +kernel

/-- C24: the status byte of a response is reported, and the record is an error iff it is above 20.  Heartbeats count
as status 20. -/
theorem dubbo_response_parsed (flags status : UInt8) (hrest body : Bytes) (h12 : hrest.length = 12) (hres : flags &&& 0x80 = 0) (hser : flags &&& 0x1f ≠ 0) (a : Attrs) :
    ∃ m, parseResponse (header flags status hrest ++ body) a = .ok (true, m) ∧
      AMap.get m.attrs (bs "dubbo_error_code") = some (.int (if flags &&& 0x20 = 0 then status.toNat else 20)) ∧
      AMap.get m.attrs (bs "is_error") = (if flags &&& 0x20 = 0 ∧ 20 < status.toNat then some (.bool true) else AMap.get a (bs "is_error")) ∧
      AMap.get m.attrs (bs "error_type") = (if flags &&& 0x20 = 0 ∧ 20 < status.toNat then some (.int 3) else AMap.get a (bs "error_type")) := by
  rw [show bs "dubbo_error_code" = kErrCode from rfl, show bs "is_error" = kIsError from rfl, show bs "error_type" = kErrorType from rfl] at *
  obtain ⟨g1, g2, g3, g4, g5, g6⟩ := header_reads flags status hrest body h12
  obtain ⟨k1, k2, k3⟩ := keys_differ
  generalize header flags status hrest ++ body = d at *
  have hc : errorCode d = .ok (if flags &&& 0x20 = 0 then status.toNat else 20) := by
    simp only [errorCode, g4, Res.bind_ok, if_neg hser, g5, hres]
    by_cases he : flags &&& 0x20 = 0 <;> simp [he]
  have hne : (if flags &&& 0x20 = 0 then (status.toNat : Int) else 20) ≠ -1 := by split <;> omega
  have hgt : (if flags &&& 0x20 = 0 then (status.toNat : Int) else 20) > 20 ↔ flags &&& 0x20 = 0 ∧ 20 < status.toNat := by
    split
    · rename_i h; simp only [h, true_and]; omega
    · rename_i h; simp [h]
  generalize (if flags &&& 0x20 = 0 then (status.toNat : Int) else 20) = c at *
  by_cases hq : c > 20
  · refine ⟨(((Msg.mk d 0 a).add kErrCode (.int c)).add kIsError (.bool true)).add kErrorType (.int 3), ?_, ?_, ?_, ?_⟩
    · simp only [parseResponse, Tree.single, Tree.run, responseTree, fastFail, if_neg g6, g2, g3, Res.bind_ok, Res.pure_eq, ne_eq, not_true_eq_false, ↓reduceIte,
        decide_false, Bool.false_eq_true, responseParse, hc, if_neg hne, if_pos hq, Bool.not_true]
      rfl
    · simp only [Msg.add]; rw [AMap.get_set_ne _ _ (Ne.symm k2), AMap.get_set_ne _ _ (Ne.symm k1), AMap.get_set_self]
    · rw [if_pos (hgt.1 hq)]; simp only [Msg.add]; rw [AMap.get_set_ne _ _ (Ne.symm k3), AMap.get_set_self]
    · rw [if_pos (hgt.1 hq)]; simp only [Msg.add]; rw [AMap.get_set_self]
  · refine ⟨(Msg.mk d 0 a).add kErrCode (.int c), ?_, ?_, ?_, ?_⟩
    · simp only [parseResponse, Tree.single, Tree.run, responseTree, fastFail, if_neg g6, g2, g3, Res.bind_ok, Res.pure_eq, ne_eq, not_true_eq_false, ↓reduceIte,
        decide_false, Bool.false_eq_true, responseParse, hc, if_neg hne, if_neg hq, Bool.not_true]
      rfl
    · simp only [Msg.add]; rw [AMap.get_set_self]
    · rw [if_neg (fun h => hq (hgt.2 h))]; simp only [Msg.add]; rw [AMap.get_set_ne _ _ k1]
    · rw [if_neg (fun h => hq (hgt.2 h))]; simp only [Msg.add]; rw [AMap.get_set_ne _ _ k2]

/-- C24: a request, or a header without serialisation id, gives no status. -/
theorem dubbo_not_response (flags status : UInt8) (hrest body : Bytes) (h12 : hrest.length = 12)
    (h : flags &&& 0x1f = 0 ∨ (flags &&& 0x80 ≠ 0 ∧ flags &&& 0x20 = 0)) (a : Attrs) :
    parseResponse (header flags status hrest ++ body) a = .ok (false, ⟨header flags status hrest ++ body, 0, a⟩) := by
  obtain ⟨g1, g2, g3, g4, g5, g6⟩ := header_reads flags status hrest body h12
  generalize header flags status hrest ++ body = d at *
  have hc : errorCode d = .ok (-1) := by
    simp only [errorCode, g4, Res.bind_ok]
    rcases h with h | ⟨h, h2⟩
    · simp [h]
    · by_cases h0 : flags &&& 0x1f = 0 <;> simp [h, h2, h0]
  simp only [parseResponse, Tree.single, Tree.run, responseTree, fastFail, if_neg g6, g2, g3, Res.bind_ok, Res.pure_eq, ne_eq, not_true_eq_false, ↓reduceIte,
        decide_false, Bool.false_eq_true, responseParse, hc, Bool.not_false]

/-! ## Panics (C21) -/

theorem hTake_ok (d : Bytes) (off len : Nat) (h : off ≤ d.length) : ∃ r, hTake d off len = .ok r := by
  simp only [hTake]
  split
  · rw [slice_ok (by omega)]; exact ⟨_, rfl⟩
  · rw [slice_ok (by omega)]; exact ⟨_, rfl⟩

theorem hEat_ok (d : Bytes) (off : Nat) : ∃ r, hEat d off = .ok r := by
  simp only [hEat]
  split
  · exact ⟨_, rfl⟩
  · obtain ⟨b, hb⟩ := Http.idx_some (d := d) (i := off) (by omega) (by omega)
    simp only [hb, Res.bind_ok]
    split
    · split
      · exact ⟨_, rfl⟩
      · obtain ⟨c, hc⟩ := Http.idx_some (d := d) (i := ((off + 1 : Nat) : Int)) (by omega) (by omega)
        simp only [hc, Res.bind_ok]
        exact ⟨_, rfl⟩
    · exact ⟨_, rfl⟩

theorem hStr_ok (d : Bytes) (off : Nat) : ∃ r, hStr d off = .ok r := by
  simp only [hStr]
  split
  · exact ⟨_, rfl⟩
  · obtain ⟨b, hb⟩ := Http.idx_some (d := d) (i := off) (by omega) (by omega)
    simp only [hb, Res.bind_ok]
    split
    · split
      · exact ⟨_, rfl⟩
      · obtain ⟨c, hc⟩ := Http.idx_some (d := d) (i := ((off + 1 : Nat) : Int)) (by omega) (by omega)
        simp only [hc, Res.bind_ok]
        exact hTake_ok d _ _ (by omega)
    · exact hTake_ok d _ _ (by omega)

theorem single_ok (t : Tree) (m : Msg) (ht : t.children = []) (hf : ∃ b, t.fastFail m = .ok b) (hp : t.fastFail m = .ok false → ∃ r, t.parse m = .ok r) :
    ∃ r, t.single m = .ok r := by
  obtain ⟨b, hb⟩ := hf
  simp only [Tree.single, Tree.run, hb, Res.bind_ok]
  cases b with
  | true => simp
  | false =>
    obtain ⟨⟨⟨ok, co⟩, m'⟩, hr⟩ := hp hb
    simp only [Bool.false_eq_true, ↓reduceIte, hr, Res.bind_ok, ht, List.isEmpty_nil]
    cases ok <;> cases co <;> simp

theorem fastFail_ok (m : Msg) : (∃ b, fastFail m = .ok b) ∧ (fastFail m = .ok false → 16 ≤ m.data.length) := by
  simp only [fastFail]
  split
  · exact ⟨⟨_, rfl⟩, by simp⟩
  · refine ⟨?_, by intro _; omega⟩
    obtain ⟨a, ha⟩ := Http.idx_some (d := m.data) (i := 0) (by omega) (by omega)
    obtain ⟨b, hb⟩ := Http.idx_some (d := m.data) (i := 1) (by omega) (by omega)
    simp only [ha, hb, Res.bind_ok]
    split <;> exact ⟨_, rfl⟩

/-- C21, Dubbo: no response, and no request in another serialisation than JSON, makes the parser panic. -/
theorem dubbo_never_panics_partial (d : Bytes) (a : Attrs) :
    (∃ r, parseResponse d a = .ok r) ∧ ((∀ f, d[2]? = some f → f &&& 0x1f ≠ 6) → ∃ r, parseRequest d = .ok r) := by
  constructor
  · apply single_ok
    · rfl
    · exact (fastFail_ok _).1
    · intro h
      have h16 := (fastFail_ok _).2 h
      obtain ⟨f, hf⟩ := Http.idx_some (d := d) (i := 2) (by omega) (by simp at h16; omega)
      obtain ⟨s, hs⟩ := Http.idx_some (d := d) (i := 3) (by omega) (by simp at h16; omega)
      have hc : ∃ c, errorCode d = .ok c := by
        simp only [errorCode, hf, hs, Res.bind_ok]
        split
        · exact ⟨_, rfl⟩
        · split
          · exact ⟨_, rfl⟩
          · split <;> exact ⟨_, rfl⟩
      obtain ⟨c, hc⟩ := hc
      simp only [responseTree, responseParse, hc, Res.bind_ok]
      split
      · exact ⟨_, rfl⟩
      · split <;> exact ⟨_, rfl⟩
  · intro h6
    apply single_ok
    · rfl
    · exact (fastFail_ok _).1
    · intro h
      have h16 := (fastFail_ok _).2 h
      obtain ⟨f, hf, hg⟩ := idx_ok (d := d) (i := 2) (by omega) (by simp at h16; omega)
      have hf6 := h6 f hg
      have hc : ∃ c, contentKey d = .ok c := by
        simp only [contentKey, hf, Res.bind_ok, if_neg hf6]
        split
        · exact ⟨_, rfl⟩
        · split
          · exact ⟨_, rfl⟩
          · split
            · exact ⟨_, rfl⟩
            · split
              · exact ⟨_, rfl⟩
              · split
                · obtain ⟨o1, e1⟩ := hEat_ok d 16
                  obtain ⟨⟨o2, s2⟩, e2⟩ := hStr_ok d o1
                  obtain ⟨o3, e3⟩ := hEat_ok d o2
                  obtain ⟨⟨o4, s4⟩, e4⟩ := hStr_ok d o3
                  simp [serviceMethod, e1, e2, e3, e4]
                · exact ⟨_, rfl⟩
      obtain ⟨c, hc⟩ := hc
      simp only [requestTree, requestParse, hc, Res.bind_ok]
      split <;> exact ⟨_, rfl⟩

/-- C21 fails for Dubbo: a two-way JSON request whose second line has a single byte makes the parser panic. -/
theorem dubbo_json_panics (flags status : UInt8) (hrest v rest : Bytes) (x : UInt8) (h12 : hrest.length = 12) (hv : (10 : UInt8) ∉ v)
    (hreq : flags &&& 0x80 ≠ 0) (htwo : flags &&& 0x40 ≠ 0) (hev : flags &&& 0x20 = 0) (hser : flags &&& 0x1f = 6) :
    parseRequest (header flags status hrest ++ (json v ++ (x :: 10 :: rest))) = .panic := by
  obtain ⟨g1, g2, g3, g4, g5, g6⟩ := header_reads flags status hrest (json v ++ (x :: 10 :: rest)) h12
  have r1 := (json_read (header flags status hrest) v (x :: 10 :: rest) hv).1
  have hf : findNl ((header flags status hrest ++ (json v ++ (x :: 10 :: rest))).drop ((header flags status hrest).length + (json v).length + 1)) = some 0 := by
    have e : header flags status hrest ++ (json v ++ (x :: 10 :: rest)) = (header flags status hrest ++ json v ++ [x]) ++ (10 :: rest) := by simp
    have e2 : (header flags status hrest).length + (json v).length + 1 = (header flags status hrest ++ json v ++ [x]).length := by simp [Nat.add_assoc]
    rw [e, e2, List.drop_left]
    rfl
  have hl : ¬ (header flags status hrest).length + (json v).length ≥ (header flags status hrest ++ (json v ++ (x :: 10 :: rest))).length := by simp
  rw [g1] at r1 hf hl
  generalize header flags status hrest ++ (json v ++ (x :: 10 :: rest)) = d at *
  have hs : jStr d (16 + (json v).length) = .panic := by
    simp only [jStr, if_neg hl, hf, slice]
    rw [if_neg (by omega)]; rfl
  have hk : contentKey d = .panic := by
    have : serviceMethod jEat jStr d = .panic := by simp [serviceMethod, r1, hs]
    simp only [contentKey, g4, Res.bind_ok, hser, hev, if_neg hreq, if_neg htwo, this]
    simp
  simp [parseRequest, Tree.single, Tree.run, requestTree, fastFail, g6, g2, g3, requestParse, hk]

/-! ## Samples -/

example : (0xc2 : UInt8) &&& 0x80 ≠ 0 ∧ (0xc2 : UInt8) &&& 0x40 ≠ 0 ∧ (0xc2 : UInt8) &&& 0x20 = 0 ∧ (0xc2 : UInt8) &&& 0x1f = 2 := by decide
example : (0x02 : UInt8) &&& 0x80 = 0 ∧ (0x02 : UInt8) &&& 0x1f ≠ 0 := by decide
example : hessian (bs "2.0.2") = 5 :: bs "2.0.2" := by decide +kernel

end Kindling.Proto.Dubbo
