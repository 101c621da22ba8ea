import Verif.Proto.Readers
/-
Model of collector/pkg/component/analyzer/network/protocol/dns.

Simplifications, for the whole file: offsets are natural numbers (they are never negative where they are used);
a returned error carries no offset (every caller drops it).
-/
namespace Kindling.Proto.Dns
open Kindling Kindling.Proto

/-- dns_helper.go:16-20 (the bytes of the string `\000\001...\031`). -/
def escapedByteSmall : Bytes := [
   92, 48, 48, 48, 92, 48, 48, 49, 92, 48, 48, 50, 92, 48, 48, 51, 92, 48, 48, 52, 92, 48, 48, 53, 92, 48, 48, 54, 92, 48, 48, 55, 92, 48, 48, 56, 92, 48, 48, 57,
   92, 48, 49, 48, 92, 48, 49, 49, 92, 48, 49, 50, 92, 48, 49, 51, 92, 48, 49, 52, 92, 48, 49, 53, 92, 48, 49, 54, 92, 48, 49, 55, 92, 48, 49, 56, 92, 48, 49, 57,
   92, 48, 50, 48, 92, 48, 50, 49, 92, 48, 50, 50, 92, 48, 50, 51, 92, 48, 50, 52, 92, 48, 50, 53, 92, 48, 50, 54, 92, 48, 50, 55, 92, 48, 50, 56, 92, 48, 50, 57,
   92, 48, 51, 48, 92, 48, 51, 49]

/-- dns_helper.go:21-34 (the bytes of the string `\127\128...\255`). -/
def escapedByteLarge : Bytes := [
   92, 49, 50, 55, 92, 49, 50, 56, 92, 49, 50, 57, 92, 49, 51, 48, 92, 49, 51, 49, 92, 49, 51, 50, 92, 49, 51, 51, 92, 49, 51, 52, 92, 49, 51, 53, 92, 49, 51, 54,
   92, 49, 51, 55, 92, 49, 51, 56, 92, 49, 51, 57, 92, 49, 52, 48, 92, 49, 52, 49, 92, 49, 52, 50, 92, 49, 52, 51, 92, 49, 52, 52, 92, 49, 52, 53, 92, 49, 52, 54,
   92, 49, 52, 55, 92, 49, 52, 56, 92, 49, 52, 57, 92, 49, 53, 48, 92, 49, 53, 49, 92, 49, 53, 50, 92, 49, 53, 51, 92, 49, 53, 52, 92, 49, 53, 53, 92, 49, 53, 54,
   92, 49, 53, 55, 92, 49, 53, 56, 92, 49, 53, 57, 92, 49, 54, 48, 92, 49, 54, 49, 92, 49, 54, 50, 92, 49, 54, 51, 92, 49, 54, 52, 92, 49, 54, 53, 92, 49, 54, 54,
   92, 49, 54, 55, 92, 49, 54, 56, 92, 49, 54, 57, 92, 49, 55, 48, 92, 49, 55, 49, 92, 49, 55, 50, 92, 49, 55, 51, 92, 49, 55, 52, 92, 49, 55, 53, 92, 49, 55, 54,
   92, 49, 55, 55, 92, 49, 55, 56, 92, 49, 55, 57, 92, 49, 56, 48, 92, 49, 56, 49, 92, 49, 56, 50, 92, 49, 56, 51, 92, 49, 56, 52, 92, 49, 56, 53, 92, 49, 56, 54,
   92, 49, 56, 55, 92, 49, 56, 56, 92, 49, 56, 57, 92, 49, 57, 48, 92, 49, 57, 49, 92, 49, 57, 50, 92, 49, 57, 51, 92, 49, 57, 52, 92, 49, 57, 53, 92, 49, 57, 54,
   92, 49, 57, 55, 92, 49, 57, 56, 92, 49, 57, 57, 92, 50, 48, 48, 92, 50, 48, 49, 92, 50, 48, 50, 92, 50, 48, 51, 92, 50, 48, 52, 92, 50, 48, 53, 92, 50, 48, 54,
   92, 50, 48, 55, 92, 50, 48, 56, 92, 50, 48, 57, 92, 50, 49, 48, 92, 50, 49, 49, 92, 50, 49, 50, 92, 50, 49, 51, 92, 50, 49, 52, 92, 50, 49, 53, 92, 50, 49, 54,
   92, 50, 49, 55, 92, 50, 49, 56, 92, 50, 49, 57, 92, 50, 50, 48, 92, 50, 50, 49, 92, 50, 50, 50, 92, 50, 50, 51, 92, 50, 50, 52, 92, 50, 50, 53, 92, 50, 50, 54,
   92, 50, 50, 55, 92, 50, 50, 56, 92, 50, 50, 57, 92, 50, 51, 48, 92, 50, 51, 49, 92, 50, 51, 50, 92, 50, 51, 51, 92, 50, 51, 52, 92, 50, 51, 53, 92, 50, 51, 54,
   92, 50, 51, 55, 92, 50, 51, 56, 92, 50, 51, 57, 92, 50, 52, 48, 92, 50, 52, 49, 92, 50, 52, 50, 92, 50, 52, 51, 92, 50, 52, 52, 92, 50, 52, 53, 92, 50, 52, 54,
   92, 50, 52, 55, 92, 50, 52, 56, 92, 50, 52, 57, 92, 50, 53, 48, 92, 50, 53, 49, 92, 50, 53, 50, 92, 50, 53, 51, 92, 50, 53, 52, 92, 50, 53, 53]

/-- dns_helper.go:39-47 `escapeByte`; the products and the difference are byte arithmetic in the first branch
and in `b -= '~' + 1`. -/
def escapeByte (b : UInt8) : Res Bytes :=
  if b < 32 then slice escapedByteSmall (b * 4).toNat (b * 4 + 4).toNat
  else
    let b := b - 127
    slice escapedByteLarge (b.toNat * 4 : Nat) (b.toNat * 4 + 4 : Nat)

/-- dns_helper.go:52-58 `isDomainNameLabelSpecial`. -/
def isSpecial (b : UInt8) : Bool :=
  b = 46 || b = 32 || b = 39 || b = 64 || b = 59 || b = 40 || b = 41 || b = 34 || b = 92

/-- dns_helper.go:87-95: what one byte of a label appends. -/
def labelByte (b : UInt8) : Res Bytes :=
  if isSpecial b then .ok [92, b]
  else if b < 32 ∨ b > 126 then escapeByte b
  else .ok [b]

/-- dns_helper.go:87-95: the loop over a label. -/
def labelBytes : Bytes → Bytes → Res Bytes
  | [], s => .ok s
  | b :: r, s => do
    let e ← labelByte b
    labelBytes r (s ++ e)

/-- dns_parser.go:11-13. -/
def maxWireOctets : Nat := 255
def maxPointers : Nat := (maxWireOctets + 1) / 2 - 2

/-- What dns_helper.go:124-126 computes at the end of the loop. -/
def endOffset (ptr off off1 : Nat) : Nat := if ptr = 0 then off else off1

/-- dns_helper.go:66-123, the loop.  The result is the text so far, `off1` and the number of pointers followed
(the last one is not returned by the code, it is kept for the property on it). -/
def unpackLoop (msg : Bytes) (off off1 : Nat) (budget : Int) (ptr : Nat) (s : Bytes) : Res (Bytes × Nat × Nat) :=
  if h : off ≥ msg.length then .err
  else
    let c := (msg[off]'(by omega)).toNat
    let off' := off + 1
    if c &&& 0xC0 = 0 then
      if c = 0 then .ok (s, endOffset ptr off' off1, ptr)
      else if h2 : off' + c > msg.length then .err
      else
        let budget' := budget - (c + 1)
        if budget' ≤ 0 then .err
        else
          match slice msg off' (off' + c) with
          | .ok l =>
            match labelBytes l s with
            | .ok s' => unpackLoop msg (off' + c) off1 budget' ptr (s' ++ [46])
            | .err => .err
            | .panic => .panic
          | .err => .err
          | .panic => .panic
    else if c &&& 0xC0 = 0xC0 then
      if h3 : off' ≥ msg.length then .err
      else
        let c1 := (msg[off']'(by omega)).toNat
        let off'' := off' + 1
        let off1' := if ptr = 0 then off'' else off1
        if h4 : ptr + 1 > maxPointers then .err
        else unpackLoop msg ((c ^^^ 0xC0) <<< 8 ||| c1) off1' budget (ptr + 1) s
    else .err
termination_by (maxPointers - ptr, msg.length - off)
decreasing_by
  · apply Prod.Lex.right; omega
  · apply Prod.Lex.left; omega

/-- dns_helper.go:60-131 `unpackDomainName`. -/
def unpackDomainName (msg : Bytes) (off : Nat) : Res (Bytes × Nat) :=
  match unpackLoop msg off 0 maxWireOctets 0 [] with
  | .ok (s, o, _) => .ok (if s.length = 0 then [46] else s, o)
  | .err => .err
  | .panic => .panic

/-- dns_parser.go:62-80: the loop of `readQuery` with `n` questions left. -/
def readQueryLoop (d : Bytes) (mo : Nat) : Nat → Nat → Bytes → Res (Bytes × Nat)
  | 0, off, dom => .ok (dom, off)
  | n + 1, off, dom =>
    if d.length ≤ mo then .err
    else
      match unpackDomainName d off with
      | .ok (name, o) =>
        if o ≥ d.length then .err
        else readQueryLoop d mo n (o + 4) (if dom.length = 0 then name else dom)
      | .err => .err
      | .panic => .panic

/-- dns_parser.go:58-83 `readQuery`: domain and the new message offset. -/
def readQuery (d : Bytes) (mo n : Nat) : Res (Bytes × Nat) := readQueryLoop d mo n (mo + 12) []

/-- dns_response.go:97-127: the loop of `readIpV4Answer` with `n` answers left, offset and addresses so far.
An error leaves the loop (`break`). -/
def answerLoop (d : Bytes) : Nat → Int → List Bytes → Res (List Bytes)
  | 0, _, ips => .ok ips
  | n + 1, off, ips =>
    let off := off + 2
    match readUInt16 d off with
    | .err => .ok ips
    | .panic => .panic
    | .ok aType =>
      let off := off + 8
      match readUInt16 d off with
      | .err => .ok ips
      | .panic => .panic
      | .ok length =>
        let off := off + 2
        if aType = 1 then
          match readBytes d off length with
          | .err => .ok ips
          | .panic => .panic
          | .ok (ip, off) => answerLoop d n (off + length) (ips ++ [ip])
        else answerLoop d n (off + length) ips

/-- dns_response.go:86-134 `readIpV4Answer`.  The code joins the texts of the addresses by commas; here the list
of addresses (the bytes of each) is the result.  The message offset it leaves behind is not read any more. -/
def readIpV4Answer (d : Bytes) (mo : Nat) (n : Nat) : Res (List Bytes) := answerLoop d n mo []

/-- `value, _ := message.ReadUInt16(offset)`: zero on error. -/
def u16OrZero (d : Bytes) (off : Nat) : Nat :=
  match readUInt16 d off with
  | .ok v => v
  | _ => 0

/-- What a successfully parsed DNS message adds to the attributes. -/
structure DnsAttrs where
  id : Nat
  domain : Bytes
  ips : List Bytes := []
  rcode : Option Nat := none
  isError : Bool := false
deriving DecidableEq, Repr

/-- dns_request.go:6-10 and dns_response.go:16-20: the fast-fail checks. -/
def fastfail (d : Bytes) : Bool := d.length ≤ 12

/-- dns_request.go:46-61 `parseDnsRequest` at message offset `mo` (0 for UDP, 2 for TCP: 14-26); `.err` is
`false, true`. -/
def parseRequest (d : Bytes) (mo : Nat) : Res DnsAttrs :=
  let id := u16OrZero d mo
  let nq := u16OrZero d (mo + 4)
  if nq = 0 then .err
  else match readQuery d mo nq with
    | .ok (dom, _) => .ok { id := id, domain := dom }
    | .err => .err
    | .panic => .panic

/-- dns_response.go:53-84 `parseDnsResponse`. -/
def parseResponse (ignore3 : Bool) (d : Bytes) (mo : Nat) : Res DnsAttrs :=
  let id := u16OrZero d mo
  let flags := u16OrZero d (mo + 2)
  let rcode := flags &&& 0xf
  let nq := u16OrZero d (mo + 4)
  let na := u16OrZero d (mo + 6)
  if nq = 0 then .err
  else match readQuery d mo nq with
    | .ok (dom, o) =>
      match readIpV4Answer d o na with
      | .ok ips => .ok { id := id, domain := dom, ips := ips, rcode := some rcode,
                         isError := (decide (rcode > 0) && decide (rcode ≠ 3)) || (decide (rcode = 3) && !ignore3) }
      | .err => .err
      | .panic => .panic
    | .err => .err
    | .panic => .panic

end Kindling.Proto.Dns
