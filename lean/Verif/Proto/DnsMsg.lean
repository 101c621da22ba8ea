import Verif.Proto.DnsProps
/-
C19, C61: DNS messages.  The encoders are written from RFC 1035, section 4.1.
-/
namespace Kindling.Proto.Dns
open Kindling Kindling.Proto

/-! ## Specification: messages on the wire -/

/-- A resource record whose owner is a compression pointer (what servers send for the queried name). -/
structure RR where
  name : Nat
  type : Nat
  cls : Nat
  ttl : Nat
  rdata : Bytes

def RR.enc (r : RR) : Bytes := be16 r.name ++ be16 r.type ++ be16 r.cls ++ be32 r.ttl ++ be16 r.rdata.length ++ r.rdata

/-- All fields fit. -/
def RR.Fits (r : RR) : Prop := r.name < 65536 ∧ r.type < 65536 ∧ r.cls < 65536 ∧ r.ttl < 4294967296 ∧ r.rdata.length < 65536

def encAll (rs : List RR) : Bytes := (rs.map RR.enc).flatten

structure Question where
  labels : List Bytes
  qtype : Nat
  qclass : Nat

def Question.enc (q : Question) : Bytes := wire q.labels ++ be16 q.qtype ++ be16 q.qclass

structure Header where
  id : Nat
  flags : Nat
  nq : Nat
  na : Nat
  ns : Nat
  ar : Nat

def Header.enc (h : Header) : Bytes := be16 h.id ++ be16 h.flags ++ be16 h.nq ++ be16 h.na ++ be16 h.ns ++ be16 h.ar
def Header.Fits (h : Header) : Prop :=
  h.id < 65536 ∧ h.flags < 65536 ∧ h.nq < 65536 ∧ h.na < 65536 ∧ h.ns < 65536 ∧ h.ar < 65536

/-- RFC 1035: RCODE is the last four bits of the flags. -/
def Header.rcode (h : Header) : Nat := h.flags % 16

/-! ## Lemmas -/

theorem readUInt16_be (n : Nat) (h : n < 65536) (pre post : Bytes) (off : Int) (ho : off = pre.length) :
    readUInt16 (pre ++ be16 n ++ post) off = .ok n := by
  subst ho
  simp only [readUInt16]
  rw [if_neg (by omega), if_neg (by simp [be16]; omega)]
  rw [be16]
  rw [show pre ++ [UInt8.ofNat (n / 256), UInt8.ofNat (n % 256)] ++ post = pre ++ UInt8.ofNat (n / 256) :: (UInt8.ofNat (n % 256) :: post) by simp]
  rw [get_mid pre _ _ _ rfl]
  rw [show pre ++ UInt8.ofNat (n / 256) :: (UInt8.ofNat (n % 256) :: post) = (pre ++ [UInt8.ofNat (n / 256)]) ++ UInt8.ofNat (n % 256) :: post by simp]
  rw [get_mid (pre ++ [UInt8.ofNat (n / 256)]) _ _ _ (by simp)]
  simp only [Res.bind_ok, Res.pure_eq]
  rw [ofNat_toNat (by omega), ofNat_toNat (by omega), Nat.or_comm, or_shift (by omega)]
  congr 1
  omega

theorem readUInt16_no_panic (d : Bytes) (off : Int) : readUInt16 d off ≠ .panic := by
  simp only [readUInt16]
  split
  · simp
  · split
    · simp
    · obtain ⟨a, ha, _⟩ := idx_ok (d := d) (i := off) (by omega) (by omega)
      obtain ⟨b, hb, _⟩ := idx_ok (d := d) (i := off + 1) (by omega) (by omega)
      rw [ha, hb]; simp

theorem readBytes_no_panic (d : Bytes) (off len : Int) : readBytes d off len ≠ .panic := by
  simp only [readBytes]
  split
  · simp
  · split
    · simp
    · rw [slice_ok (by omega)]; simp

/-- The loop never panics and only appends. -/
theorem answerLoop_ok (d : Bytes) (n : Nat) : ∀ (off : Int) (ips : List Bytes), ∃ more, answerLoop d n off ips = .ok (ips ++ more) := by
  induction n with
  | zero => intro off ips; exact ⟨[], by simp [answerLoop]⟩
  | succ n ih =>
    intro off ips
    simp only [answerLoop]
    cases h1 : readUInt16 d (off + 2) with
    | panic => exact absurd h1 (readUInt16_no_panic _ _)
    | err => exact ⟨[], by simp⟩
    | ok t =>
      simp only
      cases h2 : readUInt16 d (off + 2 + 8) with
      | panic => exact absurd h2 (readUInt16_no_panic _ _)
      | err => exact ⟨[], by simp⟩
      | ok len =>
        simp only
        split
        · cases h3 : readBytes d (off + 2 + 8 + 2) len with
          | panic => exact absurd h3 (readBytes_no_panic _ _ _)
          | err => exact ⟨[], by simp⟩
          | ok p =>
            obtain ⟨ip, o⟩ := p
            obtain ⟨m, hm⟩ := ih (o + len) (ips ++ [ip])
            exact ⟨[ip] ++ m, by simp only [hm]; simp⟩
        · exact ih _ _

theorem rr_type {r : RR} (hr : r.Fits) (pre post : Bytes) (off : Int) (ho : off = pre.length + 2) :
    readUInt16 (pre ++ r.enc ++ post) off = .ok r.type := by
  have e : pre ++ r.enc ++ post = (pre ++ be16 r.name) ++ be16 r.type ++ (be16 r.cls ++ be32 r.ttl ++ be16 r.rdata.length ++ r.rdata ++ post) := by
    simp [RR.enc]
  rw [e]
  exact readUInt16_be _ hr.2.1 _ _ _ (by simp [be16]; omega)

theorem rr_len {r : RR} (hr : r.Fits) (pre post : Bytes) (off : Int) (ho : off = pre.length + 10) :
    readUInt16 (pre ++ r.enc ++ post) off = .ok r.rdata.length := by
  have e : pre ++ r.enc ++ post = (pre ++ be16 r.name ++ be16 r.type ++ be16 r.cls ++ be32 r.ttl) ++ be16 r.rdata.length ++ (r.rdata ++ post) := by
    simp [RR.enc]
  rw [e]
  exact readUInt16_be _ hr.2.2.2.2 _ _ _ (by simp [be16, be32]; omega)

theorem rr_data {r : RR} (pre post : Bytes) (off : Int) (ho : off = pre.length + 12) :
    readBytes (pre ++ r.enc ++ post) off r.rdata.length = .ok (r.rdata, off + r.rdata.length) := by
  have e : pre ++ r.enc ++ post = (pre ++ be16 r.name ++ be16 r.type ++ be16 r.cls ++ be32 r.ttl ++ be16 r.rdata.length) ++ r.rdata ++ post := by
    simp [RR.enc]
  have hl : ((pre ++ be16 r.name ++ be16 r.type ++ be16 r.cls ++ be32 r.ttl ++ be16 r.rdata.length).length : Int) = off := by
    simp [be16, be32]; omega
  rw [e]
  generalize (pre ++ be16 r.name ++ be16 r.type ++ be16 r.cls ++ be32 r.ttl ++ be16 r.rdata.length) = q at hl
  simp only [readBytes]
  rw [if_neg (by omega), if_neg (by simp; omega)]
  have := slice_nat q r.rdata post
  rw [show ((q.length + r.rdata.length : Nat) : Int) = off + r.rdata.length by omega, hl] at this
  rw [this]; simp

theorem enc_length (r : RR) : r.enc.length = 12 + r.rdata.length := by simp [RR.enc, be16, be32]; omega

theorem answer_other {r : RR} (hr : r.Fits) (ht : r.type ≠ 1) (n : Nat) (pre post : Bytes) (ips : List Bytes) :
    answerLoop (pre ++ r.enc ++ post) (n + 1) pre.length ips =
      answerLoop (pre ++ r.enc ++ post) n ((pre ++ r.enc).length : Nat) ips := by
  simp only [answerLoop]
  rw [rr_type hr pre post _ rfl]
  simp only
  rw [rr_len hr pre post _ (by omega)]
  simp only
  rw [if_neg ht]
  congr 1
  simp [enc_length]; omega

theorem answer_a {r : RR} (hr : r.Fits) (ht : r.type = 1) (n : Nat) (pre post : Bytes) (ips : List Bytes) :
    answerLoop (pre ++ r.enc ++ post) (n + 1) pre.length ips =
      answerLoop (pre ++ r.enc ++ post) n ((pre ++ r.enc).length + r.rdata.length : Nat) (ips ++ [r.rdata]) := by
  simp only [answerLoop]
  rw [rr_type hr pre post _ rfl]
  simp only
  rw [rr_len hr pre post _ (by omega)]
  simp only
  rw [if_pos ht]
  rw [rr_data pre post _ (by omega)]
  simp only
  congr 1
  simp [enc_length]; omega

theorem answer_others (rs : List RR) : ∀ (pre post : Bytes) (n : Nat) (ips : List Bytes), (∀ r ∈ rs, r.Fits ∧ r.type ≠ 1) →
    answerLoop (pre ++ encAll rs ++ post) (rs.length + n) pre.length ips =
      answerLoop (pre ++ encAll rs ++ post) n ((pre ++ encAll rs).length : Nat) ips := by
  induction rs with
  | nil => intro pre post n ips _; simp [encAll]
  | cons r rs ih =>
    intro pre post n ips h
    have e : pre ++ encAll (r :: rs) ++ post = pre ++ r.enc ++ (encAll rs ++ post) := by simp [encAll]
    have e2 : pre ++ r.enc ++ (encAll rs ++ post) = (pre ++ r.enc) ++ encAll rs ++ post := by simp
    have h1 := h r (by simp)
    rw [e, show (r :: rs).length + n = (rs.length + n) + 1 by simp; omega]
    rw [answer_other h1.1 h1.2, e2, ih (pre ++ r.enc) post n ips (fun x hx => h x (by simp [hx]))]
    congr 1
    simp [encAll]

/-! ## C19 -/

/-- C19, as far as the code satisfies it: if the answer section holds exactly one A record, as the last of any
number of records (aliases and so on), its address is what is reported; the first A record is in any case
reported first, whatever follows it.  Missing: further A records, see `second_address_lost`. -/
theorem first_address_reported_partial (others : List RR) (a : RR) (pre rest : Bytes) (n : Nat)
    (ho : ∀ r ∈ others, r.Fits ∧ r.type ≠ 1) (ha : a.Fits) (ht : a.type = 1) :
    (∃ more, readIpV4Answer (pre ++ encAll (others ++ [a]) ++ rest) pre.length (others.length + 1 + n) = .ok (a.rdata :: more)) ∧
    readIpV4Answer (pre ++ encAll (others ++ [a]) ++ rest) pre.length (others.length + 1) = .ok [a.rdata] := by
  have e : pre ++ encAll (others ++ [a]) ++ rest = pre ++ encAll others ++ (a.enc ++ rest) := by simp [encAll]
  have step : ∀ n, readIpV4Answer (pre ++ encAll (others ++ [a]) ++ rest) pre.length (others.length + 1 + n) =
      answerLoop (pre ++ encAll others ++ a.enc ++ rest) n ((pre ++ encAll others ++ a.enc).length + a.rdata.length : Nat) [a.rdata] := by
    intro n
    simp only [readIpV4Answer]
    rw [e, show others.length + 1 + n = others.length + (n + 1) by omega, answer_others others pre _ _ _ ho]
    rw [show pre ++ encAll others ++ (a.enc ++ rest) = (pre ++ encAll others) ++ a.enc ++ rest by simp]
    rw [answer_a ha ht]
    simp
  constructor
  · rw [step]
    obtain ⟨m, hm⟩ := answerLoop_ok (pre ++ encAll others ++ a.enc ++ rest) n ((pre ++ encAll others ++ a.enc).length + a.rdata.length : Nat) [a.rdata]
    exact ⟨m, hm⟩
  · have := step 0
    simpa [answerLoop] using this

/-- C19 without A records: nothing is reported. -/
theorem no_address_reported (others : List RR) (pre rest : Bytes) (ho : ∀ r ∈ others, r.Fits ∧ r.type ≠ 1) :
    readIpV4Answer (pre ++ encAll others ++ rest) pre.length others.length = .ok [] := by
  have := answer_others others pre rest 0 [] ho
  simpa [readIpV4Answer, answerLoop] using this

/-- C19 fails of the code: of two A records (time to live of the second below 65536 seconds) only the first address is
reported, whatever the addresses and the rest of the message. -/
theorem second_address_lost (a b : RR) (pre rest : Bytes) (ha : a.Fits) (_hb : b.Fits) (hta : a.type = 1)
    (h4 : a.rdata.length = 4) (h4' : b.rdata.length = 4) (httl : b.ttl < 65536) :
    readIpV4Answer (pre ++ encAll [a, b] ++ rest) pre.length 2 = .ok [a.rdata] := by
  have e : pre ++ encAll [a, b] ++ rest = pre ++ a.enc ++ (b.enc ++ rest) := by simp [encAll]
  simp only [readIpV4Answer]
  rw [e, answer_a ha hta]
  have hbl := enc_length b
  -- the second record is read four bytes too far: its "type" is the upper half of the time to live
  have e2 : pre ++ a.enc ++ (b.enc ++ rest) =
      (pre ++ a.enc ++ be16 b.name ++ be16 b.type ++ be16 b.cls) ++ be16 0 ++
        (be16 b.ttl ++ be16 4 ++ b.rdata ++ rest) := by
    have : be32 b.ttl = be16 0 ++ be16 b.ttl := by
      simp only [be32, be16]
      have h1 : b.ttl / 16777216 = 0 := by omega
      have h2 : b.ttl / 65536 % 256 = 0 := by omega
      have h3 : b.ttl / 256 % 256 = b.ttl / 256 := by omega
      rw [h1, h2, h3]
      rfl
    simp [RR.enc, this, h4']
  have hlen : (pre ++ a.enc ++ be16 b.name ++ be16 b.type ++ be16 b.cls).length = pre.length + 16 + 6 := by
    simp [enc_length, h4, be16]
  have hpa : (pre ++ a.enc).length = pre.length + 16 := by simp [enc_length, h4]
  simp only [answerLoop]
  have hread : readUInt16 (pre ++ a.enc ++ (b.enc ++ rest)) ((pre ++ a.enc).length + a.rdata.length + 2 : Nat) = .ok 0 := by
    rw [e2]
    exact readUInt16_be 0 (by omega) _ _ _ (by rw [hlen, hpa, h4])
  rw [show (((pre ++ a.enc).length + a.rdata.length : Nat) : Int) + 2 = ((pre ++ a.enc).length + a.rdata.length + 2 : Nat) by omega]
  rw [hread]
  simp only
  cases h2 : readUInt16 (pre ++ a.enc ++ (b.enc ++ rest)) (((pre ++ a.enc).length + a.rdata.length + 2 : Nat) + 8) with
  | panic => exact absurd h2 (readUInt16_no_panic _ _)
  | err => simp
  | ok len => simp

/-! ## C61: whole messages -/

theorem nameText_ne (ls : List Bytes) : (nameText ls).length ≠ 0 := by
  simp only [nameText]
  split
  · simp
  · intro h
    cases ls with
    | nil => contradiction
    | cons l r => exact labelsText_ne (List.length_eq_zero_iff.1 h)

theorem header_fields (h : Header) (hf : h.Fits) (pre post : Bytes) :
    u16OrZero (pre ++ h.enc ++ post) pre.length = h.id ∧ u16OrZero (pre ++ h.enc ++ post) (pre.length + 2) = h.flags ∧
    u16OrZero (pre ++ h.enc ++ post) (pre.length + 4) = h.nq ∧ u16OrZero (pre ++ h.enc ++ post) (pre.length + 6) = h.na := by
  obtain ⟨h1, h2, h3, h4, h5, h6⟩ := hf
  have e1 : pre ++ h.enc ++ post = pre ++ be16 h.id ++ (be16 h.flags ++ be16 h.nq ++ be16 h.na ++ be16 h.ns ++ be16 h.ar ++ post) := by simp [Header.enc]
  have e2 : pre ++ h.enc ++ post = (pre ++ be16 h.id) ++ be16 h.flags ++ (be16 h.nq ++ be16 h.na ++ be16 h.ns ++ be16 h.ar ++ post) := by simp [Header.enc]
  have e3 : pre ++ h.enc ++ post = (pre ++ be16 h.id ++ be16 h.flags) ++ be16 h.nq ++ (be16 h.na ++ be16 h.ns ++ be16 h.ar ++ post) := by simp [Header.enc]
  have e4 : pre ++ h.enc ++ post = (pre ++ be16 h.id ++ be16 h.flags ++ be16 h.nq) ++ be16 h.na ++ (be16 h.ns ++ be16 h.ar ++ post) := by simp [Header.enc]
  refine ⟨?_, ?_, ?_, ?_⟩
  · simp only [u16OrZero]; rw [e1, readUInt16_be _ h1 _ _ _ rfl]
  · simp only [u16OrZero]; rw [e2, readUInt16_be _ h2 _ _ _ (by simp [be16])]
  · simp only [u16OrZero]; rw [e3, readUInt16_be _ h3 _ _ _ (by simp [be16])]
  · simp only [u16OrZero]; rw [e4, readUInt16_be _ h4 _ _ _ (by simp [be16])]

theorem readQuery_one (h : Header) (q : Question) (hq : Legal q.labels) (pre post : Bytes) :
    readQuery (pre ++ h.enc ++ q.enc ++ post) pre.length 1 =
      .ok (nameText q.labels, (pre ++ h.enc ++ q.enc).length) := by
  simp only [readQuery, readQueryLoop]
  have hl : h.enc.length = 12 := by simp [Header.enc, be16]
  have e : pre ++ h.enc ++ q.enc ++ post = (pre ++ h.enc) ++ wire q.labels ++ (be16 q.qtype ++ be16 q.qclass ++ post) := by simp [Question.enc]
  have hu := unpack_inverts_wire q.labels hq (pre ++ h.enc) (be16 q.qtype ++ be16 q.qclass ++ post)
  rw [← e, show (pre ++ h.enc).length = pre.length + 12 by simp [hl]] at hu
  rw [if_neg (by simp [hl]; omega), hu]
  simp only
  rw [if_neg (by rw [e]; simp [hl, be16]; omega)]
  simp [Question.enc, be16, hl]; omega

/-- C61: of every request message with one question, the transaction id and the name are reported, over UDP
(`pre = []`) and TCP (`pre` the two length bytes). -/
theorem dns_request_parsed (h : Header) (q : Question) (hf : h.Fits) (hq : Legal q.labels) (h1 : h.nq = 1) (pre post : Bytes) :
    parseRequest (pre ++ h.enc ++ q.enc ++ post) pre.length = .ok { id := h.id, domain := nameText q.labels } := by
  have hh := header_fields h hf pre (q.enc ++ post)
  rw [← List.append_assoc] at hh
  simp only [parseRequest, hh, h1]
  rw [if_neg (by omega), readQuery_one h q hq pre post]

/-- C61: of every response to one question, the id, the name and the response code are reported; it is an error
exactly for a non-zero code, 3 (no such name) being excepted if so configured. -/
theorem dns_response_parsed (ignore3 : Bool) (h : Header) (q : Question) (hf : h.Fits) (hq : Legal q.labels) (h1 : h.nq = 1) (pre post : Bytes) :
    ∃ r, parseResponse ignore3 (pre ++ h.enc ++ q.enc ++ post) pre.length = .ok r ∧ r.id = h.id ∧ r.domain = nameText q.labels ∧
      r.rcode = some h.rcode ∧ (r.isError = true ↔ h.rcode ≠ 0 ∧ ¬ (h.rcode = 3 ∧ ignore3 = true)) := by
  have hh := header_fields h hf pre (q.enc ++ post)
  rw [← List.append_assoc] at hh
  obtain ⟨ips, hips⟩ := answerLoop_ok (pre ++ h.enc ++ q.enc ++ post) h.na ((pre ++ h.enc ++ q.enc).length : Nat) []
  have hr : h.flags &&& 15 = h.rcode := Nat.and_two_pow_sub_one_eq_mod h.flags 4
  refine ⟨{ id := h.id, domain := nameText q.labels, ips := ips, rcode := some h.rcode,
            isError := (decide (h.rcode > 0) && decide (h.rcode ≠ 3)) || (decide (h.rcode = 3) && !ignore3) }, ?_, rfl, rfl, rfl, ?_⟩
  · simp only [parseResponse, hh, h1]
    rw [if_neg (by omega), readQuery_one h q hq pre post]
    simp only [readIpV4Answer, hips, hr]
    rfl
  · cases ignore3 <;> simp <;> omega

theorem readQueryLoop_no_panic (d : Bytes) (mo n : Nat) : ∀ off dom, readQueryLoop d mo n off dom ≠ .panic := by
  induction n with
  | zero => intro off dom; simp [readQueryLoop]
  | succ n ih =>
    intro off dom
    simp only [readQueryLoop]
    split
    · simp
    · cases h : unpackDomainName d off with
      | panic => exact absurd h ((unpack_iff d off [] 0).2)
      | err => simp
      | ok p =>
        simp only
        split
        · simp
        · exact ih _ _

/-- C61: no payload makes the DNS parsers panic. -/
theorem dns_parsers_never_panic (ignore3 : Bool) (d : Bytes) (mo : Nat) :
    parseRequest d mo ≠ .panic ∧ parseResponse ignore3 d mo ≠ .panic := by
  have hq : ∀ n, readQuery d mo n ≠ .panic := fun n => readQueryLoop_no_panic d mo n _ _
  constructor
  · simp only [parseRequest]
    split
    · simp
    · cases h : readQuery d mo (u16OrZero d (mo + 4)) with
      | panic => exact absurd h (hq _)
      | err => simp
      | ok p => simp
  · simp only [parseResponse]
    split
    · simp
    · cases h : readQuery d mo (u16OrZero d (mo + 4)) with
      | panic => exact absurd h (hq _)
      | err => simp
      | ok p =>
        obtain ⟨m, hm⟩ := answerLoop_ok d (u16OrZero d (mo + 6)) p.2 []
        simp only [readIpV4Answer, hm]
        simp

/-! ## Non-vacuity -/

example : (⟨0xC00C, 1, 1, 300, [10, 0, 0, 1]⟩ : RR).Fits := by simp only [RR.Fits]; decide

example : readIpV4Answer (encAll [⟨0xC00C, 5, 1, 300, [192, 12]⟩, ⟨0xC00C, 1, 1, 300, [10, 0, 0, 1]⟩]) 0 2 = .ok [[10, 0, 0, 1]] := by
  decide

/-- Two addresses, one reported. -/
example : readIpV4Answer (encAll [⟨0xC00C, 1, 1, 300, [10, 0, 0, 1]⟩, ⟨0xC00C, 1, 1, 300, [10, 0, 0, 2]⟩]) 0 2 = .ok [[10, 0, 0, 1]] := by
  decide

example : Legal [bs "example", bs "com"] ∧ (⟨7, 0x8183, 1, 0, 0, 0⟩ : Header).Fits := by
  refine ⟨⟨by decide, by decide⟩, ?_⟩
  simp only [Header.Fits]; decide

/-- C61: a payload is looked at iff it is longer than a header: every message with a question is. -/
theorem dns_message_tried (h : Header) (q : Question) (pre post : Bytes) :
    fastfail (pre ++ h.enc ++ q.enc ++ post) = false ∧ ∀ d : Bytes, d.length ≤ 12 → fastfail d = true := by
  refine ⟨?_, fun d hd => decide_eq_true hd⟩
  have hl : h.enc.length = 12 := by simp [Header.enc, be16]
  have hq : 4 ≤ q.enc.length := by simp [Question.enc, be16]
  apply decide_eq_false
  simp only [List.length_append]
  omega

end Kindling.Proto.Dns
