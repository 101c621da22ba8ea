import Verif.Basic
import Verif.Dec
/-
Model of collector/pkg/component/analyzer/network/protocol/protocol_parser.go: the payload readers.

Simplifications, for the whole file:
* Go `int` is unbounded (offsets and lengths are far below 2^63);
* an error result carries no offset (the code returns -1 with every error);
* slicing beyond `len` counts as a panic even where the capacity would allow it.
-/
namespace Kindling.Proto
open Kindling

/-- `d[i]`. -/
def idx (d : Bytes) (i : Int) : Res UInt8 :=
  if 0 ≤ i then match d[i.toNat]? with
    | some b => .ok b
    | none => .panic
  else .panic

/-- `d[a:b]`. -/
def slice (d : Bytes) (a b : Int) : Res Bytes :=
  if 0 ≤ a ∧ a ≤ b ∧ b ≤ d.length then .ok ((d.drop a.toNat).take (b - a).toNat) else .panic

/-- Conversion to a signed type of `bits` bits. -/
def signed (bits : Nat) (n : Nat) : Int :=
  let m := n % 2 ^ bits
  if m < 2 ^ (bits - 1) then m else (m : Int) - 2 ^ bits

/-- protocol_parser.go:111-119 `ReadUInt16`. -/
def readUInt16 (d : Bytes) (off : Int) : Res Nat :=
  if off < 0 then .err
  else if off + 2 > d.length then .err
  else do
    let a ← idx d off
    let b ← idx d (off + 1)
    pure (a.toNat <<< 8 ||| b.toNat)

/-- protocol_parser.go:121-130 `ReadInt16`. -/
def readInt16 (d : Bytes) (off : Int) : Res (Int × Int) :=
  if off < 0 then .err
  else if off + 2 > d.length then .err
  else do
    let a ← idx d off
    let b ← idx d (off + 1)
    pure (signed 16 (a.toNat <<< 8 ||| b.toNat), off + 2)

/-- protocol_parser.go:132-141 `ReadInt32`. -/
def readInt32 (d : Bytes) (off : Int) : Res (Int × Int) :=
  if off < 0 then .err
  else if off + 4 > d.length then .err
  else do
    let a ← idx d off
    let b ← idx d (off + 1)
    let c ← idx d (off + 2)
    let e ← idx d (off + 3)
    pure (signed 32 (a.toNat <<< 24 ||| b.toNat <<< 16 ||| c.toNat <<< 8 ||| e.toNat), off + 4)

/-- protocol_parser.go:143-152 `ReadBytes`. -/
def readBytes (d : Bytes) (off len : Int) : Res (Bytes × Int) :=
  if off < 0 ∨ len < 0 then .err
  else if off + len > d.length then .err
  else do
    let v ← slice d off (off + len)
    pure (v, off + len)

/-- protocol_parser.go:159-174: the loop, with `times - i` rounds left (`x` does not exceed 64 bits for the
five rounds the callers ask for, so `Nat` stands for `uint64`). -/
def varIntLoop (d : Bytes) (off : Int) : Nat → Nat → Nat → Nat → Res (Nat × Int)
  | 0, _, _, _ => .err
  | n + 1, i, x, s =>
    if off + i ≥ d.length then .err
    else do
      let b ← idx d (off + i)
      if b < 0x80 then pure (x ||| b.toNat <<< s, off + i + 1)
      else varIntLoop d off n (i + 1) (x ||| (b.toNat &&& 0x7f) <<< s) (s + 7)

/-- protocol_parser.go:154-175 `readUnsignedVarIntCore` with `times = 5`, and 177-179 `ReadUnsignedVarInt`. -/
def readUnsignedVarInt (d : Bytes) (off : Int) : Res (Nat × Int) :=
  if off < 0 then .err else varIntLoop d off 5 0 0 0

/-- protocol_parser.go:182: `int64(value>>1) ^ -(int64(value) & 1)`. -/
def zigzag (v : Nat) : Int :=
  let w := BitVec.ofNat 64 v
  ((w >>> 1) ^^^ (-(w &&& 1))).toInt

/-- protocol_parser.go:181-183 `ReadVarInt`. -/
def readVarInt (d : Bytes) (off : Int) : Res (Int × Int) := do
  let (v, o) ← readUnsignedVarInt d off
  pure (zigzag v, o)

/-- The tail common to the string readers: 205-209, 220-224, ...: `long` decides whether the rest of the payload
is taken. -/
def takeString (d : Bytes) (off len : Int) (long : Bool) : Res (Bytes × Int) :=
  if long then do
    let v ← slice d off d.length
    pure (v, d.length)
  else do
    let v ← slice d off (off + len)
    pure (v, off + len)

/-- protocol_parser.go:192-209 `readNullableString`; `none`: the variable is left alone (null). -/
def readNullableString (d : Bytes) (off : Int) : Res (Option Bytes × Int) := do
  let (len, o) ← readInt16 d off
  if len < -1 then .err
  else if len = -1 then pure (none, o)
  else do
    let (v, o') ← takeString d o len (decide (o + len ≥ d.length))
    pure (some v, o')

/-- protocol_parser.go:211-230 `readCompactNullableString`. -/
def readCompactNullableString (d : Bytes) (off : Int) : Res (Option Bytes × Int) := do
  let (len, o) ← readUnsignedVarInt d off
  if (len : Int) - 1 < -1 then .err
  else if (len : Int) - 1 = -1 then pure (none, o)
  else do
    let (v, o') ← takeString d o ((len : Int) - 1) (decide (o + len ≥ d.length))
    pure (some v, o')

/-- protocol_parser.go:185-190 `ReadNullableString`. -/
def readNullableStringC (d : Bytes) (off : Int) (compact : Bool) : Res (Option Bytes × Int) :=
  if compact then readCompactNullableString d off else readNullableString d off

/-- protocol_parser.go:239-255 `readCompactArraySize`. -/
def readCompactArraySize (d : Bytes) (off : Int) : Res (Int × Int) := do
  let (len, o) ← readUnsignedVarInt d off
  let l := signed 32 len
  if l < 0 then .err
  else if l = 0 then pure (0, o)
  else pure (l - 1, o)

/-- protocol_parser.go:257-271 `readArraySize`. -/
def readArraySizePlain (d : Bytes) (off : Int) : Res (Int × Int) := do
  let (len, o) ← readInt32 d off
  if len < -1 then .err
  else if len = -1 then pure (0, o)
  else pure (len, o)

/-- protocol_parser.go:232-237 `ReadArraySize`. -/
def readArraySize (d : Bytes) (off : Int) (compact : Bool) : Res (Int × Int) :=
  if compact then readCompactArraySize d off else readArraySizePlain d off

/-- protocol_parser.go:280-297 `readCompactString`. -/
def readCompactString (d : Bytes) (off : Int) : Res (Bytes × Int) := do
  let (len, o) ← readUnsignedVarInt d off
  if (len : Int) - 1 < 0 then .err
  else takeString d o ((len : Int) - 1) (decide (o + len ≥ d.length))

/-- protocol_parser.go:299-314 `readString`. -/
def readStringPlain (d : Bytes) (off : Int) : Res (Bytes × Int) := do
  let (len, o) ← readInt16 d off
  if len < 0 then .err
  else takeString d o len (decide (o + len ≥ d.length))

/-- protocol_parser.go:273-278 `ReadString`. -/
def readString (d : Bytes) (off : Int) (compact : Bool) : Res (Bytes × Int) :=
  if compact then readCompactString d off else readStringPlain d off

/-- The position of the first blank. -/
def findBlank : Bytes → Option Nat
  | [] => none
  | b :: r => if b = 32 then some 0 else (findBlank r).map (· + 1)

/-- protocol_parser.go:316-325 `ReadUntilBlank` (`from` is not negative in any call). -/
def readUntilBlank (d : Bytes) (start : Nat) : Res (Int × Bytes) :=
  match findBlank (d.drop start) with
  | some j => do
    let v ← slice d start (start + j)
    pure ((start + j : Int) + 1, v)
  | none => do
    let v ← slice d start d.length
    pure (d.length, v)

/-- protocol_parser.go:327-339 `ReadUntilBlankWithLength`. -/
def readUntilBlankWithLength (d : Bytes) (start fixed : Nat) : Res (Int × Bytes) :=
  let length := if fixed + start < d.length then start + fixed else d.length
  match findBlank ((d.take length).drop start) with
  | some j => do
    let v ← slice d start (start + j)
    pure ((start + j : Int) + 1, v)
  | none => do
    let v ← slice d start length
    pure ((length : Int), v)

/-- protocol_parser.go:348-366: position of the first CR, and whether it ends a line (LF or end follows). -/
def findCR : Bytes → Option Nat
  | [] => none
  | b :: r => if b = 13 then some 0 else (findCR r).map (· + 1)

/-- protocol_parser.go:342-371 `ReadUntilCRLF`; `.err` stands for `EOF, nil`. -/
def readUntilCRLF (d : Bytes) (start : Nat) : Res (Int × Bytes) :=
  if start ≥ d.length then .err
  else match findCR (d.drop start) with
    | none => do
      let v ← slice d start d.length
      pure (d.length, v)
    | some j =>
      let i := start + j
      if i = d.length - 1 then do
        let v ← slice d start (d.length - 1 : Nat)
        pure (d.length, v)
      else do
        let c ← idx d (i + 1 : Nat)
        if c = 10 then do
          let v ← slice d start i
          pure ((i : Int) + 2, v)
        else .err

/-- protocol_parser.go:62-67 `GetData`. -/
def getData (d : Bytes) (off len : Int) : Res Bytes :=
  if off + len > d.length then slice d off d.length else slice d off (off + len)

end Kindling.Proto
