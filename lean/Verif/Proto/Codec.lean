import Verif.Proto.ReaderProps
/-
C16, C17: round trips of the variable-length integers and of the Kafka strings.  The encoders are written from
the Kafka protocol guide, independently of the readers.
-/
namespace Kindling.Proto
open Kindling

/-- LEB128. -/
def leb (n : Nat) : Bytes :=
  if n < 128 then [UInt8.ofNat n] else UInt8.ofNat (n % 128 + 128) :: leb (n / 128)
termination_by n

/-- Zigzag: 0, -1, 1, -2, ... become 0, 1, 2, 3, ... -/
def zig (n : Int) : Nat := if n ≥ 0 then (2 * n).toNat else (-2 * n - 1).toNat

/-- Two bytes, most significant first. -/
def be16 (n : Nat) : Bytes := [UInt8.ofNat (n / 256), UInt8.ofNat (n % 256)]

def be32 (n : Nat) : Bytes :=
  [UInt8.ofNat (n / 16777216), UInt8.ofNat (n / 65536 % 256), UInt8.ofNat (n / 256 % 256), UInt8.ofNat (n % 256)]

/-! ## Lemmas -/

theorem or_shift {x b s : Nat} (hx : x < 2 ^ s) : x ||| b <<< s = x + b * 2 ^ s := by
  rw [Nat.or_comm, ← Nat.shiftLeft_add_eq_or_of_lt hx, Nat.shiftLeft_eq, Nat.add_comm]

theorem ofNat_toNat {n : Nat} (h : n < 256) : (UInt8.ofNat n).toNat = n := by
  simp [UInt8.toNat_ofNat']; omega

theorem and_7f (n : Nat) : n &&& 0x7f = n % 128 := Nat.and_two_pow_sub_one_eq_mod n 7

theorem ge_80 {b : UInt8} : ¬ b < 0x80 ↔ 128 ≤ b.toNat := by
  rw [UInt8.lt_iff_toNat_lt]; simp

theorem get_mid (p : Bytes) (b : UInt8) (q : Bytes) (k : Int) (hk : k = p.length) : idx (p ++ b :: q) k = .ok b := by
  subst hk; simp [idx]

/-- The loop decodes a LEB128 number that needs at most `n` bytes. -/
theorem varIntLoop_leb (n : Nat) : ∀ (v : Nat) (pre post : Bytes) (i x : Nat) (off : Int), v < 2 ^ (7 * n) → 0 < n →
    off + i = pre.length → x < 2 ^ (7 * i) →
    varIntLoop (pre ++ leb v ++ post) off n i x (7 * i) = .ok (x + v * 2 ^ (7 * i), off + i + (leb v).length) := by
  induction n with
  | zero => intro v pre post i x off _ h; omega
  | succ n ih =>
    intro v pre post i x off hv _ hoff hx
    rw [leb]
    simp only [varIntLoop]
    by_cases hsmall : v < 128
    · simp only [hsmall, ↓reduceIte]
      rw [if_neg (by simp; omega)]
      rw [List.append_assoc, List.singleton_append, get_mid pre _ post _ hoff]
      simp only [Res.bind_ok]
      have hlt : UInt8.ofNat v < 0x80 := by rw [UInt8.lt_iff_toNat_lt, ofNat_toNat (by omega)]; simpa using hsmall
      rw [if_pos hlt, ofNat_toNat (by omega), or_shift hx]
      simp
    · simp only [hsmall, ↓reduceIte]
      rw [if_neg (by simp; omega)]
      rw [List.append_assoc, List.cons_append, get_mid pre _ _ _ hoff]
      simp only [Res.bind_ok]
      have hb : (UInt8.ofNat (v % 128 + 128)).toNat = v % 128 + 128 := ofNat_toNat (by omega)
      have hge : ¬ UInt8.ofNat (v % 128 + 128) < 0x80 := by rw [ge_80, hb]; omega
      rw [if_neg hge, hb, and_7f, or_shift hx]
      have hn0 : 0 < n := by
        rcases Nat.eq_zero_or_pos n with h | h
        · subst h; simp at hv; omega
        · exact h
      have hv' : v / 128 < 2 ^ (7 * n) := by
        rw [Nat.div_lt_iff_lt_mul (by omega)]
        rw [show 7 * (n + 1) = 7 * n + 7 by omega, Nat.pow_add] at hv
        simpa using hv
      have hpow : 2 ^ (7 * (i + 1)) = 2 ^ (7 * i) * 128 := by rw [show 7 * (i + 1) = 7 * i + 7 by omega, Nat.pow_add]
      have hm : (v % 128 + 128) % 128 = v % 128 := by omega
      have hmul : v % 128 * 2 ^ (7 * i) ≤ 127 * 2 ^ (7 * i) := Nat.mul_le_mul_right _ (by omega)
      have h2 := ih (v / 128) (pre ++ [UInt8.ofNat (v % 128 + 128)]) post (i + 1) (x + v % 128 * 2 ^ (7 * i)) off hv' hn0
        (by simp; omega) (by rw [hpow]; omega)
      rw [hm]
      rw [show 7 * i + 7 = 7 * (i + 1) by omega]
      have happ : pre ++ UInt8.ofNat (v % 128 + 128) :: (leb (v / 128) ++ post) =
          pre ++ [UInt8.ofNat (v % 128 + 128)] ++ leb (v / 128) ++ post := by simp
      rw [happ, h2]
      congr 2
      · rw [hpow]
        have : v = v / 128 * 128 + v % 128 := by omega
        have e : v * 2 ^ (7 * i) = v / 128 * (2 ^ (7 * i) * 128) + v % 128 * 2 ^ (7 * i) := by
          conv => lhs; rw [this]
          rw [Nat.add_mul, Nat.mul_assoc, Nat.mul_comm 128]
        omega
      · simp; omega

theorem leb_length (n : Nat) : ∀ v, v < 2 ^ (7 * (n + 1)) → (leb v).length ≤ n + 1 := by
  induction n with
  | zero => intro v hv; rw [leb]; simp at hv; simp [hv]
  | succ n ih =>
    intro v hv
    rw [leb]
    split
    · simp
    · have : v / 128 < 2 ^ (7 * (n + 1)) := by
        rw [Nat.div_lt_iff_lt_mul (by omega)]
        rw [show 7 * (n + 1 + 1) = 7 * (n + 1) + 7 by omega, Nat.pow_add] at hv
        simpa using hv
      have := ih _ this
      simp; omega

/-- C16: every 35-bit number (in particular every 32-bit one), encoded anywhere in a payload, is decoded, and
the offset moves by the length of the encoding, which is at most five bytes. -/
theorem varint_roundtrip (v : Nat) (hv : v < 2 ^ 35) (pre post : Bytes) :
    readUnsignedVarInt (pre ++ leb v ++ post) pre.length = .ok (v, pre.length + (leb v).length) ∧ (leb v).length ≤ 5 := by
  refine ⟨?_, leb_length 4 v hv⟩
  simp only [readUnsignedVarInt]
  rw [if_neg (by omega)]
  have := varIntLoop_leb 5 v pre post 0 0 pre.length hv (by omega) (by simp) (by simp)
  simpa using this

theorem zigzag_even (m : Nat) (h : m < 2 ^ 62) : zigzag (2 * m) = m := by
  simp only [zigzag]
  have h1 : (BitVec.ofNat 64 (2 * m)) &&& 1 = 0 := by
    apply BitVec.eq_of_toNat_eq
    simp [BitVec.toNat_and, Nat.and_one_is_mod]
  rw [h1]
  rw [show (-(0 : BitVec 64)) = 0#64 by decide, BitVec.xor_zero]
  rw [BitVec.toInt_eq_toNat_of_lt]
  · simp [Nat.shiftRight_eq_div_pow]; omega
  · simp [Nat.shiftRight_eq_div_pow]; omega

theorem zigzag_odd (m : Nat) (h : m < 2 ^ 62) : zigzag (2 * m + 1) = -(m : Int) - 1 := by
  simp only [zigzag]
  have h1 : (BitVec.ofNat 64 (2 * m + 1)) &&& 1 = 1 := by
    apply BitVec.eq_of_toNat_eq
    simp [BitVec.toNat_and, Nat.and_one_is_mod]
  rw [h1, show (-(1 : BitVec 64)) = BitVec.allOnes 64 by decide, BitVec.xor_allOnes]
  rw [BitVec.toInt_not]
  have hn : (BitVec.ofNat 64 (2 * m + 1) >>> 1).toNat = m := by
    simp [Nat.shiftRight_eq_div_pow]; omega
  rw [hn]
  rw [Int.bmod_def]
  omega

/-- C16: signed numbers, through zigzag. -/
theorem varint_signed_roundtrip (n : Int) (h1 : -2 ^ 31 ≤ n) (h2 : n < 2 ^ 31) (pre post : Bytes) :
    readVarInt (pre ++ leb (zig n) ++ post) pre.length = .ok (n, pre.length + (leb (zig n)).length) := by
  have hz : zig n < 2 ^ 35 := by simp only [zig]; split <;> omega
  simp only [readVarInt, (varint_roundtrip (zig n) hz pre post).1, Res.bind_ok, Res.pure_eq]
  congr 2
  simp only [zig]
  split
  · rw [show (2 * n).toNat = 2 * n.toNat by omega, zigzag_even _ (by omega)]; omega
  · rw [show (-2 * n - 1).toNat = 2 * (-n - 1).toNat + 1 by omega, zigzag_odd _ (by omega)]; omega

/-- C16: whatever the payload, at most five bytes are consumed. -/
theorem varint_at_most_five (d : Bytes) (off : Int) (v : Nat) (o : Int) (h : readUnsignedVarInt d off = .ok (v, o)) :
    off < o ∧ o ≤ off + 5 := by
  have : ∀ n i x s, varIntLoop d off n i x s = .ok (v, o) → off + i < o ∧ o ≤ off + i + n := by
    intro n
    induction n with
    | zero => intro i x s h; simp [varIntLoop] at h
    | succ n ih =>
      intro i x s h
      simp only [varIntLoop] at h
      split at h
      · simp at h
      · cases hb : idx d (off + i) with
        | ok b =>
          simp only [hb, Res.bind_ok] at h
          split at h
          · simp at h; omega
          · have := ih _ _ _ h; omega
        | err => simp [hb] at h
        | panic => simp [hb] at h
  simp only [readUnsignedVarInt] at h
  split at h
  · simp at h
  · have := this 5 0 0 0 h; simp at this; omega

example : readUnsignedVarInt (bs "x" ++ leb 300 ++ bs "yz") 1 = .ok (300, 3) := by
  have := (varint_roundtrip 300 (by omega) (bs "x") (bs "yz")).1
  rw [show ((bs "x").length : Int) = 1 by decide, show (leb 300).length = 2 by simp [leb]] at this
  exact this

/-! ## C17 -/

theorem be16_lengths (n : Nat) : (be16 n).length = 2 := rfl

theorem readInt16_be (n : Nat) (h : n < 65536) (pre post : Bytes) :
    readInt16 (pre ++ be16 n ++ post) pre.length = .ok (signed 16 n, pre.length + 2) := by
  simp only [readInt16]
  rw [if_neg (by omega), if_neg (by simp [be16]; omega)]
  rw [be16]
  rw [show pre ++ [UInt8.ofNat (n / 256), UInt8.ofNat (n % 256)] ++ post = pre ++ UInt8.ofNat (n / 256) :: (UInt8.ofNat (n % 256) :: post) by simp]
  rw [get_mid pre _ _ _ rfl]
  rw [show pre ++ UInt8.ofNat (n / 256) :: (UInt8.ofNat (n % 256) :: post) = (pre ++ [UInt8.ofNat (n / 256)]) ++ UInt8.ofNat (n % 256) :: post by simp]
  rw [get_mid (pre ++ [UInt8.ofNat (n / 256)]) _ _ _ (by simp)]
  simp only [Res.bind_ok, Res.pure_eq]
  rw [ofNat_toNat (by omega), ofNat_toNat (by omega), Nat.or_comm, or_shift (by omega)]
  congr 3
  omega

theorem readInt32_be (n : Nat) (h : n < 4294967296) (pre post : Bytes) :
    readInt32 (pre ++ be32 n ++ post) pre.length = .ok (signed 32 n, pre.length + 4) := by
  simp only [readInt32]
  rw [if_neg (by omega), if_neg (by simp [be32]; omega)]
  rw [be32]
  have e : pre ++ [UInt8.ofNat (n / 16777216), UInt8.ofNat (n / 65536 % 256), UInt8.ofNat (n / 256 % 256), UInt8.ofNat (n % 256)] ++ post =
    pre ++ UInt8.ofNat (n / 16777216) :: (UInt8.ofNat (n / 65536 % 256) :: (UInt8.ofNat (n / 256 % 256) :: (UInt8.ofNat (n % 256) :: post))) := by simp
  rw [e, get_mid pre _ _ _ rfl]
  have e1 : ∀ (a : UInt8) q, pre ++ a :: q = (pre ++ [a]) ++ q := by simp
  rw [e1, get_mid (pre ++ [UInt8.ofNat (n / 16777216)]) _ _ _ (by simp)]
  have e2 : ∀ (p : Bytes) (a : UInt8) q, p ++ a :: q = (p ++ [a]) ++ q := by simp
  rw [e2 _ (UInt8.ofNat (n / 65536 % 256)), get_mid _ _ _ _ (by simp)]
  rw [e2 _ (UInt8.ofNat (n / 256 % 256)), get_mid _ _ _ _ (by simp)]
  simp only [Res.bind_ok, Res.pure_eq]
  rw [ofNat_toNat (by omega), ofNat_toNat (by omega), ofNat_toNat (by omega), ofNat_toNat (by omega)]
  have h1 : (n / 16777216) <<< 24 ||| (n / 65536 % 256) <<< 16 = (n / 65536) * 2 ^ 16 := by
    have := @or_shift ((n / 65536 % 256) <<< 16) (n / 16777216) 24 (by rw [Nat.shiftLeft_eq]; omega)
    rw [Nat.or_comm, this, Nat.shiftLeft_eq]; omega
  have h2 : (n / 65536) * 2 ^ 16 ||| (n / 256 % 256) <<< 8 = (n / 256) * 2 ^ 8 := by
    have := @or_shift ((n / 256 % 256) <<< 8) (n / 65536) 16 (by rw [Nat.shiftLeft_eq]; omega)
    rw [Nat.or_comm, ← Nat.shiftLeft_eq, this, Nat.shiftLeft_eq]; omega
  have h3 : (n / 256) * 2 ^ 8 ||| n % 256 = n := by
    have := @or_shift (n % 256) (n / 256) 8 (by omega)
    rw [Nat.or_comm, ← Nat.shiftLeft_eq, this]; omega
  rw [h1, h2, h3]

theorem signed_small {bits n : Nat} (h : n < 2 ^ (bits - 1)) : signed bits n = n := by
  have h2 : 2 ^ (bits - 1) ≤ 2 ^ bits := Nat.pow_le_pow_right (by omega) (by omega)
  simp only [signed]
  rw [Nat.mod_eq_of_lt (by omega), if_pos h]

theorem takeString_exact (p v q : Bytes) (long : Bool) (hl : long = true → q = []) :
    takeString (p ++ v ++ q) p.length v.length long = .ok (v, p.length + v.length) := by
  cases long with
  | true =>
    have hq := hl rfl
    subst hq
    simp only [takeString, ↓reduceIte]
    have : slice (p ++ v ++ []) p.length ((p ++ v ++ []).length : Nat) = .ok v := by
      have := slice_nat p v []
      rw [List.append_nil] at this ⊢
      rw [List.length_append]; exact this
    rw [this]; simp
  | false =>
    simp only [takeString, Bool.false_eq_true, ↓reduceIte]
    have := slice_nat p v q
    rw [show ((p.length + v.length : Nat) : Int) = (p.length : Int) + v.length by omega] at this
    rw [this]; simp

/-- A Kafka `STRING`: a signed 16-bit length and the bytes. -/
def encString (s : Bytes) : Bytes := be16 s.length ++ s
/-- A Kafka `NULLABLE_STRING`: length -1 for null. -/
def encNullable : Option Bytes → Bytes
  | none => [255, 255]
  | some s => encString s
/-- A Kafka `COMPACT_STRING`: length + 1 as unsigned varint. -/
def encCompact (s : Bytes) : Bytes := leb (s.length + 1) ++ s
/-- A Kafka `COMPACT_NULLABLE_STRING`: 0 for null. -/
def encCompactNullable : Option Bytes → Bytes
  | none => [0]
  | some s => encCompact s

/-- C17: strings. -/
theorem string_roundtrip (s pre post : Bytes) (h : s.length < 32768) :
    readString (pre ++ encString s ++ post) pre.length false = .ok (s, pre.length + (encString s).length) := by
  have h1 := readInt16_be s.length (by omega) pre (s ++ post)
  have e : pre ++ encString s ++ post = pre ++ be16 s.length ++ (s ++ post) := by simp [encString]
  rw [e]
  simp only [readString, Bool.false_eq_true, ↓reduceIte, readStringPlain]
  rw [h1]
  simp only [Res.bind_ok]
  rw [signed_small (by simpa using h)]
  rw [if_neg (by omega)]
  rw [show pre ++ be16 s.length ++ (s ++ post) = (pre ++ be16 s.length) ++ s ++ post by simp]
  have h2 := takeString_exact (pre ++ be16 s.length) s post
    (decide ((pre.length : Int) + 2 + s.length ≥ (((pre ++ be16 s.length) ++ s ++ post).length : Nat))) (by
      simp [be16]; intro h; apply List.length_eq_zero_iff.1; omega)
  rw [show (((pre ++ be16 s.length).length : Nat) : Int) = (pre.length : Int) + 2 by simp [be16]] at h2
  rw [h2]
  simp [encString, be16]; omega

/-- C17: nullable strings. -/
theorem nullable_string_roundtrip (s : Option Bytes) (pre post : Bytes) (h : ∀ x, s = some x → x.length < 32768) :
    readNullableStringC (pre ++ encNullable s ++ post) pre.length false = .ok (s, pre.length + (encNullable s).length) := by
  cases s with
  | none =>
    simp only [encNullable]
    simp only [readNullableStringC, Bool.false_eq_true, ↓reduceIte, readNullableString]
    have h1 := readInt16_be 65535 (by omega) pre post
    have : be16 65535 = [255, 255] := by decide
    rw [this] at h1
    rw [h1]
    have : signed 16 65535 = -1 := by decide
    simp [this]
  | some s =>
    have h := h s rfl
    have h1 := readInt16_be s.length (by omega) pre (s ++ post)
    have e : pre ++ encNullable (some s) ++ post = pre ++ be16 s.length ++ (s ++ post) := by simp [encNullable, encString]
    rw [e]
    simp only [readNullableStringC, Bool.false_eq_true, ↓reduceIte, readNullableString]
    rw [h1]
    simp only [Res.bind_ok]
    rw [signed_small (by simpa using h)]
    rw [if_neg (by omega), if_neg (by omega)]
    rw [show pre ++ be16 s.length ++ (s ++ post) = (pre ++ be16 s.length) ++ s ++ post by simp]
    have h2 := takeString_exact (pre ++ be16 s.length) s post
      (decide ((pre.length : Int) + 2 + s.length ≥ (((pre ++ be16 s.length) ++ s ++ post).length : Nat))) (by
        simp [be16]; intro h; apply List.length_eq_zero_iff.1; omega)
    rw [show (((pre ++ be16 s.length).length : Nat) : Int) = (pre.length : Int) + 2 by simp [be16]] at h2
    rw [h2]
    simp [encNullable, encString, be16]; omega

/-- C17 for compact strings, unless exactly one byte follows the string.  (In that case the reader takes this
byte as part of the string: `compact_string_off_by_one`.) -/
theorem compact_string_roundtrip_partial (s pre post : Bytes) (h : s.length + 1 < 2 ^ 35) (hp : post.length ≠ 1) :
    readString (pre ++ encCompact s ++ post) pre.length true = .ok (s, pre.length + (encCompact s).length) := by
  have h1 := (varint_roundtrip (s.length + 1) h pre (s ++ post)).1
  have e : pre ++ encCompact s ++ post = pre ++ leb (s.length + 1) ++ (s ++ post) := by simp [encCompact]
  rw [e]
  simp only [readString, ↓reduceIte, readCompactString]
  rw [h1]
  simp only [Res.bind_ok]
  rw [if_neg (by omega)]
  rw [show pre ++ leb (s.length + 1) ++ (s ++ post) = (pre ++ leb (s.length + 1)) ++ s ++ post by simp]
  have h2 := takeString_exact (pre ++ leb (s.length + 1)) s post
    (decide ((pre.length : Int) + (leb (s.length + 1)).length + (s.length + 1 : Nat) ≥ (((pre ++ leb (s.length + 1)) ++ s ++ post).length : Nat))) (by
      simp; intro h; apply List.length_eq_zero_iff.1; omega)
  rw [show (((pre ++ leb (s.length + 1)).length : Nat) : Int) = (pre.length : Int) + (leb (s.length + 1)).length by simp] at h2
  rw [show ((s.length + 1 : Nat) : Int) - 1 = s.length by omega]
  rw [h2]
  simp [encCompact]; omega

/-- C17 for compact nullable strings, with the same exception. -/
theorem compact_nullable_roundtrip_partial (s : Option Bytes) (pre post : Bytes) (h : ∀ x, s = some x → x.length + 1 < 2 ^ 35)
    (hp : post.length ≠ 1 ∨ s = none) :
    readNullableStringC (pre ++ encCompactNullable s ++ post) pre.length true = .ok (s, pre.length + (encCompactNullable s).length) := by
  cases s with
  | none =>
    simp only [encCompactNullable]
    simp only [readNullableStringC, ↓reduceIte, readCompactNullableString]
    have h1 := (varint_roundtrip 0 (by omega) pre post).1
    have e : leb 0 = [0] := by rw [leb]; rfl
    rw [e] at h1
    rw [h1]
    simp
  | some s =>
    have h := h s rfl
    have hp : post.length ≠ 1 := by simpa using hp
    have h1 := (varint_roundtrip (s.length + 1) h pre (s ++ post)).1
    have e : pre ++ encCompactNullable (some s) ++ post = pre ++ leb (s.length + 1) ++ (s ++ post) := by
      simp [encCompactNullable, encCompact]
    rw [e]
    simp only [readNullableStringC, ↓reduceIte, readCompactNullableString]
    rw [h1]
    simp only [Res.bind_ok]
    rw [if_neg (by omega), if_neg (by omega)]
    rw [show pre ++ leb (s.length + 1) ++ (s ++ post) = (pre ++ leb (s.length + 1)) ++ s ++ post by simp]
    have h2 := takeString_exact (pre ++ leb (s.length + 1)) s post
      (decide ((pre.length : Int) + (leb (s.length + 1)).length + (s.length + 1 : Nat) ≥ (((pre ++ leb (s.length + 1)) ++ s ++ post).length : Nat))) (by
        simp; intro h; apply List.length_eq_zero_iff.1; omega)
    rw [show (((pre ++ leb (s.length + 1)).length : Nat) : Int) = (pre.length : Int) + (leb (s.length + 1)).length by simp] at h2
    rw [show ((s.length + 1 : Nat) : Int) - 1 = s.length by omega]
    rw [h2]
    simp [encCompactNullable, encCompact]; omega

/-- C17 fails of the code for every compact string followed by exactly one byte: that byte is added to the string. -/
theorem compact_string_off_by_one (s pre : Bytes) (b : UInt8) (h : s.length + 1 < 2 ^ 35) :
    readString (pre ++ encCompact s ++ [b]) pre.length true = .ok (s ++ [b], pre.length + (encCompact s).length + 1) := by
  have h1 := (varint_roundtrip (s.length + 1) h pre (s ++ [b])).1
  have e : pre ++ encCompact s ++ [b] = pre ++ leb (s.length + 1) ++ (s ++ [b]) := by simp [encCompact]
  rw [e]
  simp only [readString, ↓reduceIte, readCompactString]
  rw [h1]
  simp only [Res.bind_ok]
  rw [if_neg (by omega)]
  have hd : decide ((pre.length : Int) + (leb (s.length + 1)).length + (s.length + 1 : Nat) ≥ ((pre ++ leb (s.length + 1) ++ (s ++ [b])).length : Nat)) = true := by
    simp; omega
  rw [hd]
  have h2 := takeString_exact (pre ++ leb (s.length + 1)) (s ++ [b]) [] true (fun _ => rfl)
  rw [List.append_nil] at h2
  rw [show (((pre ++ leb (s.length + 1)).length : Nat) : Int) = (pre.length : Int) + (leb (s.length + 1)).length by simp] at h2
  have h3 : ∀ l l', takeString (pre ++ leb (s.length + 1) ++ (s ++ [b])) (pre.length + (leb (s.length + 1)).length) l true =
    takeString (pre ++ leb (s.length + 1) ++ (s ++ [b])) (pre.length + (leb (s.length + 1)).length) l' true := by
    intro l l'; simp [takeString]
  rw [h3 _ ((s ++ [b]).length : Nat), h2]
  simp [encCompact]; omega

example : readString (bs "k" ++ encCompact (bs "topic") ++ bs "rest") 1 true = .ok (bs "topic", 7) := by
  have := compact_string_roundtrip_partial (bs "topic") (bs "k") (bs "rest") (by decide) (by decide)
  rw [show ((bs "k").length : Int) = 1 by decide] at this
  rw [this]
  have : (encCompact (bs "topic")).length = 6 := by simp [encCompact, leb, bs]
  rw [this]; rfl

/-! ## Sizes of arrays, pieces of the payload -/

/-- C67: the size of an array: of the four bytes of a size the number, 0 of the null array (-1), and an error below. -/
theorem array_size_roundtrip (n : Nat) (h : n < 2 ^ 32) (pre post : Bytes) :
    readArraySize (pre ++ be32 n ++ post) pre.length false =
      (if n < 2 ^ 31 then .ok ((n : Int), (pre.length : Int) + 4) else if n = 2 ^ 32 - 1 then .ok (0, (pre.length : Int) + 4) else .err) := by
  simp only [readArraySize, Bool.false_eq_true, ↓reduceIte, readArraySizePlain, readInt32_be n (by omega) pre post, Res.bind_ok, Res.pure_eq]
  by_cases h1 : n < 2 ^ 31
  · rw [signed_small (by simpa using h1), if_pos h1, if_neg (by omega), if_neg (by omega)]
  · have hs : signed 32 n = (n : Int) - 2 ^ 32 := by
      simp only [signed]
      rw [Nat.mod_eq_of_lt (by omega), if_neg (by omega)]
    rw [hs, if_neg h1]
    by_cases h2 : n = 2 ^ 32 - 1
    · rw [if_pos h2, if_neg (by omega), if_pos (by omega)]
    · rw [if_neg h2, if_pos (by omega)]

/-- C67: a compact array of `n` elements is sent as `n + 1`, and the null array as 0, which is read as no elements. -/
theorem compact_array_size_roundtrip (n : Nat) (h : n + 1 < 2 ^ 31) (pre post : Bytes) :
    readArraySize (pre ++ leb (n + 1) ++ post) pre.length true = .ok ((n : Int), ((pre ++ leb (n + 1)).length : Nat)) ∧
    readArraySize (pre ++ leb 0 ++ post) pre.length true = .ok (0, ((pre ++ leb 0).length : Nat)) := by
  have r1 := varint_roundtrip (n + 1) (by omega) pre post
  have r2 := varint_roundtrip 0 (by omega) pre post
  constructor
  · simp only [readArraySize, ↓reduceIte, readCompactArraySize, r1, Res.bind_ok, Res.pure_eq]
    rw [signed_small (by simpa using h), if_neg (by omega), if_neg (by omega)]
    simp
  · simp only [readArraySize, ↓reduceIte, readCompactArraySize, r2, Res.bind_ok, Res.pure_eq]
    rw [signed_small (by simp), if_neg (by omega), if_pos (by simp)]
    simp

/-- C15: a piece of the payload: the bytes from the offset on, as many as asked for and available. -/
theorem getData_piece (d : Bytes) (off len : Nat) (h : off ≤ d.length) : getData d off len = .ok ((d.drop off).take len) := by
  simp only [getData]
  split
  · rw [slice_ok (by omega)]
    congr 1
    rw [List.take_of_length_le (by simp), List.take_of_length_le (by simp; omega)]
    simp
  · rw [slice_ok (by omega)]
    congr 1
    simp
    congr 1
    omega

example : getData (bs "HTTP/1.1") 5 10 = .ok (bs "1.1") ∧ getData (bs "HTTP/1.1") 0 4 = .ok (bs "HTTP") := by decide +kernel

end Kindling.Proto
