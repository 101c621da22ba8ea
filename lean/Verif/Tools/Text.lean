import Verif.Proto.Codec
import Verif.Proto.DnsProps
/-
Model of collector/pkg/component/analyzer/tools/ascii.go and utf8.go, and the properties C28, C29.
-/
namespace Kindling.Text
open Kindling Kindling.Proto

/-! ## Model -/

/-- ascii.go:12-27 `GetAsciiString` (`AsciiLow` 0x20, `AsciiHigh` 0x7e, replacement `.`). -/
def asciiString (d : Bytes) : Bytes := d.map (fun b => if b > 0x7e ∨ b < 0x20 then 0x2e else b)

/-- utf8.go:17-25. -/
abbrev xx : UInt8 := 0xF1
abbrev as : UInt8 := 0xF0
abbrev s1 : UInt8 := 0x02
abbrev s2 : UInt8 := 0x13
abbrev s3 : UInt8 := 0x03
abbrev s4 : UInt8 := 0x23
abbrev s5 : UInt8 := 0x34
abbrev s6 : UInt8 := 0x04
abbrev s7 : UInt8 := 0x44

/-- utf8.go:29-48 `first`. -/
def firstTable : List UInt8 := [
   as, as, as, as, as, as, as, as, as, as, as, as, as, as, as, as,
   as, as, as, as, as, as, as, as, as, as, as, as, as, as, as, as,
   as, as, as, as, as, as, as, as, as, as, as, as, as, as, as, as,
   as, as, as, as, as, as, as, as, as, as, as, as, as, as, as, as,
   as, as, as, as, as, as, as, as, as, as, as, as, as, as, as, as,
   as, as, as, as, as, as, as, as, as, as, as, as, as, as, as, as,
   as, as, as, as, as, as, as, as, as, as, as, as, as, as, as, as,
   as, as, as, as, as, as, as, as, as, as, as, as, as, as, as, as,
   xx, xx, xx, xx, xx, xx, xx, xx, xx, xx, xx, xx, xx, xx, xx, xx,
   xx, xx, xx, xx, xx, xx, xx, xx, xx, xx, xx, xx, xx, xx, xx, xx,
   xx, xx, xx, xx, xx, xx, xx, xx, xx, xx, xx, xx, xx, xx, xx, xx,
   xx, xx, xx, xx, xx, xx, xx, xx, xx, xx, xx, xx, xx, xx, xx, xx,
   xx, xx, s1, s1, s1, s1, s1, s1, s1, s1, s1, s1, s1, s1, s1, s1,
   s1, s1, s1, s1, s1, s1, s1, s1, s1, s1, s1, s1, s1, s1, s1, s1,
   s2, s3, s3, s3, s3, s3, s3, s3, s3, s3, s3, s3, s3, s4, s3, s3,
   s5, s6, s6, s6, s7, xx, xx, xx, xx, xx, xx, xx, xx, xx, xx, xx]

/-- `first[c]`; the table has an entry for every byte. -/
def first (c : UInt8) : UInt8 := (firstTable[c.toNat]?).getD 0

/-- utf8.go:58-64 `acceptRanges`. -/
def acceptRange (i : UInt8) : UInt8 × UInt8 :=
  if i = 0 then (0x80, 0xBF)
  else if i = 1 then (0xA0, 0xBF)
  else if i = 2 then (0x80, 0x9F)
  else if i = 3 then (0x90, 0xBF)
  else if i = 4 then (0x80, 0x8F)
  else (0, 0)

/-- `p[i]` where the code has checked the bounds. -/
def at' (p : Bytes) (i : Nat) : UInt8 := (p[i]?).getD 0

/-- utf8.go:91-100: the size used for the character at `i`, `size` being its nominal size. -/
def checkedSize (p : Bytes) (i : Nat) (x : UInt8) (size : Nat) : Nat :=
  let (lo, hi) := acceptRange (x >>> 4)
  if at' p (i + 1) < lo ∨ hi < at' p (i + 1) then 1
  else if size = 2 then size
  else if at' p (i + 2) < 0x80 ∨ 0xBF < at' p (i + 2) then 1
  else if size = 3 then size
  else if at' p (i + 3) < 0x80 ∨ 0xBF < at' p (i + 3) then 1
  else size

theorem first_eq (c : UInt8) : first c =
    if c.toNat < 0x80 then as else if c.toNat < 0xC2 then xx else if c.toNat < 0xE0 then s1
    else if c.toNat = 0xE0 then s2 else if c.toNat = 0xED then s4 else if c.toNat < 0xF0 then s3
    else if c.toNat = 0xF0 then s5 else if c.toNat < 0xF4 then s6 else if c.toNat = 0xF4 then s7 else xx := by
  revert c; apply Dns.forall_uint8; decide +kernel

theorem first_size (c : UInt8) (h : ¬ c < 0x80) (hx : first c ≠ xx) : 2 ≤ (first c &&& 7).toNat ∧ (first c &&& 7).toNat ≤ 4 := by
  revert h hx; revert c; apply Dns.forall_uint8; decide +kernel

theorem checkedSize_range (p : Bytes) (i : Nat) (x : UInt8) (size : Nat) (h : 1 ≤ size) :
    1 ≤ checkedSize p i x size ∧ checkedSize p i x size ≤ size := by
  simp only [checkedSize]
  repeat' split
  all_goals omega

/-- utf8.go:66-105 `runeIndex` from position `i` with `n` as the loop has it (`runeIndexInString`, 118-157, is
the same function on strings). -/
def runeIndex (p : Bytes) (i n : Nat) : Int :=
  if hi : i < p.length then
    let c := p[i]
    if hc : c < 0x80 then
      if 0 < n ∧ n < 3 then (i : Int) - n else runeIndex p (i + 1) 0
    else
      let x := first c
      if hx : x = xx then (i : Int) - n
      else
        let size := (x &&& 7).toNat
        if i + size > p.length then
          if 0 < n ∧ n < 3 then (i : Int) - n else i
        else
          let size' := checkedSize p i x size
          runeIndex p (i + size') size'
  else p.length
termination_by p.length - i
decreasing_by
  · omega
  · have h1 : 2 ≤ size ∧ size ≤ 4 := first_size c hc hx
    have h2 : 1 ≤ checkedSize p i x size ∧ _ := checkedSize_range p i x size (by omega)
    show p.length - (i + checkedSize p i x size) < p.length - i
    omega

/-- utf8.go:107-116 `FormatByteArrayToUtf8` and 159-168 `FormatStringToUtf8`. -/
def formatUtf8 (p : Bytes) : Bytes :=
  let index := runeIndex p 0 0
  if index = p.length then p
  else if index < 0 then []
  else p.take index.toNat

/-! ## Specification -/

/-- Unicode scalar values. -/
def Scalar (c : Nat) : Prop := c < 0xD800 ∨ (0xE000 ≤ c ∧ c < 0x110000)

/-- RFC 3629, section 3. -/
def utf8 (c : Nat) : Bytes :=
  if c < 0x80 then [UInt8.ofNat c]
  else if c < 0x800 then [UInt8.ofNat (0xC0 + c / 64), UInt8.ofNat (0x80 + c % 64)]
  else if c < 0x10000 then [UInt8.ofNat (0xE0 + c / 4096), UInt8.ofNat (0x80 + c / 64 % 64), UInt8.ofNat (0x80 + c % 64)]
  else [UInt8.ofNat (0xF0 + c / 262144), UInt8.ofNat (0x80 + c / 4096 % 64), UInt8.ofNat (0x80 + c / 64 % 64), UInt8.ofNat (0x80 + c % 64)]

def text (cs : List Nat) : Bytes := (cs.map utf8).flatten

def ValidUtf8 (p : Bytes) : Prop := ∃ cs, (∀ c ∈ cs, Scalar c) ∧ p = text cs

def TwoBytes (c : Nat) : Prop := 0x80 ≤ c ∧ c < 0x800

/-- No character of two bytes is followed by an ASCII character. -/
def Smooth : List Nat → Prop
  | [] => True
  | [_] => True
  | c :: d :: r => ¬ (TwoBytes c ∧ d < 0x80) ∧ Smooth (d :: r)

/-! ## C28 -/

/-- C28: same length; every byte is printable; printable bytes are kept, the others become `.`. -/
theorem ascii_sanitised (d : Bytes) :
    (asciiString d).length = d.length ∧ (∀ b ∈ asciiString d, 0x20 ≤ b.toNat ∧ b.toNat ≤ 0x7e) ∧
    ∀ (i : Nat) (b : UInt8), d[i]? = some b → (asciiString d)[i]? = some (if 0x20 ≤ b.toNat ∧ b.toNat ≤ 0x7e then b else 46) := by
  refine ⟨by simp [asciiString], ?_, ?_⟩
  · intro b hb
    simp only [asciiString, List.mem_map] at hb
    obtain ⟨a, _, rfl⟩ := hb
    split
    · decide
    · rename_i h
      simp only [gt_iff_lt, UInt8.lt_iff_toNat_lt, not_or] at h
      simp at h
      omega
  · intro i b h
    simp only [asciiString, List.getElem?_map, h, Option.map_some, gt_iff_lt, UInt8.lt_iff_toNat_lt, Option.some.injEq]
    simp
    split <;> split <;> first | rfl | omega

/-- C28: sanitising twice changes nothing more. -/
theorem ascii_idempotent (d : Bytes) : asciiString (asciiString d) = asciiString d := by
  simp only [asciiString, List.map_map]
  apply List.map_congr_left
  intro b _
  simp only [Function.comp]
  split
  · decide
  · simp

example : asciiString [104, 105, 0, 200] = bs "hi.." := by decide

/-! ## C29 -/

theorem runeIndex_range (p : Bytes) (i n : Nat) (h : n ≤ i) (hi : i ≤ p.length) :
    0 ≤ runeIndex p i n ∧ runeIndex p i n ≤ p.length := by
  fun_induction runeIndex p i n with
  | case1 => omega
  | case2 i n hi' c hc hn ih => exact ih (by omega) (by omega)
  | case3 => omega
  | case4 => omega
  | case5 => omega
  | case6 i n hi' c hc x hx size hs size' ih =>
    have h1 : 2 ≤ size ∧ size ≤ 4 := first_size c hc hx
    have h2 : 1 ≤ size' ∧ size' ≤ size := checkedSize_range p i x size (by omega)
    exact ih (by omega) (by omega)
  | case7 => omega

/-- C29: the result is a prefix of the input, for every payload. -/
theorem utf8_prefix (p : Bytes) : formatUtf8 p <+: p := by
  have h := runeIndex_range p 0 0 (by omega) (by omega)
  simp only [formatUtf8]
  split
  · exact List.prefix_refl p
  · split
    · exact List.nil_prefix
    · exact List.take_prefix _ _

theorem at_get {p : Bytes} {i : Nat} {b : UInt8} (h : p[i]? = some b) : at' p i = b := by simp [at', h]

/-- One step over a character. -/
theorem runeIndex_char (c : Nat) (hc : Scalar c) (pre post : Bytes) (n : Nat) (hn : ¬ (c < 0x80 ∧ 0 < n ∧ n < 3)) :
    runeIndex (pre ++ utf8 c ++ post) pre.length n =
      runeIndex (pre ++ utf8 c ++ post) (pre ++ utf8 c).length (if c < 0x80 then 0 else (utf8 c).length) := by
  simp only [Scalar] at hc
  by_cases h1 : c < 0x80
  · have hu : utf8 c = [UInt8.ofNat c] := by simp [utf8, h1]
    rw [hu, if_pos h1]
    conv => lhs; rw [runeIndex]
    rw [dif_pos (by simp)]
    have hg : (pre ++ [UInt8.ofNat c] ++ post)[pre.length]'(by simp) = UInt8.ofNat c := by simp
    simp only [hg]
    have hlt : UInt8.ofNat c < 0x80 := by rw [UInt8.lt_iff_toNat_lt, ofNat_toNat (by omega)]; simpa using h1
    rw [dif_pos hlt, if_neg (by omega)]
    simp
  · by_cases h2 : c < 0x800
    · have hu : utf8 c = [UInt8.ofNat (0xC0 + c / 64), UInt8.ofNat (0x80 + c % 64)] := by simp [utf8, h1, h2]
      rw [hu, if_neg h1]
      conv => lhs; rw [runeIndex]
      rw [dif_pos (by simp)]
      have hg : (pre ++ [UInt8.ofNat (0xC0 + c / 64), UInt8.ofNat (0x80 + c % 64)] ++ post)[pre.length]'(by simp) = UInt8.ofNat (0xC0 + c / 64) := by simp
      simp only [hg]
      have hb : (UInt8.ofNat (0xC0 + c / 64)).toNat = 0xC0 + c / 64 := ofNat_toNat (by omega)
      have hb2 : (UInt8.ofNat (0x80 + c % 64)).toNat = 0x80 + c % 64 := ofNat_toNat (by omega)
      have hf : first (UInt8.ofNat (0xC0 + c / 64)) = s1 := by
        rw [first_eq, hb, if_neg (by omega), if_neg (by omega), if_pos (by omega)]
      rw [dif_neg (by rw [UInt8.lt_iff_toNat_lt, hb]; simp; omega)]
      simp only [hf]
      rw [dif_neg (by decide), show (s1 &&& 7).toNat = 2 by decide, if_neg (by simp)]
      have hat : at' (pre ++ [UInt8.ofNat (0xC0 + c / 64), UInt8.ofNat (0x80 + c % 64)] ++ post) (pre.length + 1) = UInt8.ofNat (0x80 + c % 64) := by
        apply at_get; simp
      have hcs : checkedSize (pre ++ [UInt8.ofNat (0xC0 + c / 64), UInt8.ofNat (0x80 + c % 64)] ++ post) pre.length s1 2 = 2 := by
        simp only [checkedSize, hat]
        rw [show acceptRange (s1 >>> 4) = (0x80, 0xBF) by decide]
        simp only [UInt8.lt_iff_toNat_lt, hb2]
        rw [if_neg (by simp; omega)]
        rfl
      rw [hcs]
      simp
    · by_cases h3 : c < 0x10000
      · have hu : utf8 c = [UInt8.ofNat (0xE0 + c / 4096), UInt8.ofNat (0x80 + c / 64 % 64), UInt8.ofNat (0x80 + c % 64)] := by simp [utf8, h1, h2, h3]
        rw [hu, if_neg h1]
        conv => lhs; rw [runeIndex]
        rw [dif_pos (by simp)]
        have hg : (pre ++ [UInt8.ofNat (0xE0 + c / 4096), UInt8.ofNat (0x80 + c / 64 % 64), UInt8.ofNat (0x80 + c % 64)] ++ post)[pre.length]'(by simp) = UInt8.ofNat (0xE0 + c / 4096) := by simp
        simp only [hg]
        have hb : (UInt8.ofNat (0xE0 + c / 4096)).toNat = 0xE0 + c / 4096 := ofNat_toNat (by omega)
        have hb2 : (UInt8.ofNat (0x80 + c / 64 % 64)).toNat = 0x80 + c / 64 % 64 := ofNat_toNat (by omega)
        have hb3 : (UInt8.ofNat (0x80 + c % 64)).toNat = 0x80 + c % 64 := ofNat_toNat (by omega)
        have hf : first (UInt8.ofNat (0xE0 + c / 4096)) = if c / 4096 = 0 then s2 else if c / 4096 = 13 then s4 else s3 := by
          rw [first_eq, hb, if_neg (by omega), if_neg (by omega), if_neg (by omega)]
          repeat' split
          all_goals first | rfl | omega
        have hat : at' (pre ++ [UInt8.ofNat (0xE0 + c / 4096), UInt8.ofNat (0x80 + c / 64 % 64), UInt8.ofNat (0x80 + c % 64)] ++ post) (pre.length + 1) = UInt8.ofNat (0x80 + c / 64 % 64) := by
          apply at_get; simp
        have hat2 : at' (pre ++ [UInt8.ofNat (0xE0 + c / 4096), UInt8.ofNat (0x80 + c / 64 % 64), UInt8.ofNat (0x80 + c % 64)] ++ post) (pre.length + 2) = UInt8.ofNat (0x80 + c % 64) := by
          apply at_get; simp
        have hsz : (first (UInt8.ofNat (0xE0 + c / 4096)) &&& 7).toNat = 3 := by
          rw [hf]; repeat' split
          all_goals decide
        rw [dif_neg (by rw [UInt8.lt_iff_toNat_lt, hb]; simp; omega)]
        simp only [hsz]
        rw [dif_neg (by rw [hf]; repeat' split
                        all_goals decide), if_neg (by simp)]
        have hcs : checkedSize (pre ++ [UInt8.ofNat (0xE0 + c / 4096), UInt8.ofNat (0x80 + c / 64 % 64), UInt8.ofNat (0x80 + c % 64)] ++ post) pre.length
            (first (UInt8.ofNat (0xE0 + c / 4096))) 3 = 3 := by
          simp only [checkedSize, hat, hat2]
          have hacc : ¬ (UInt8.ofNat (0x80 + c / 64 % 64) < (acceptRange (first (UInt8.ofNat (0xE0 + c / 4096)) >>> 4)).1 ∨
              (acceptRange (first (UInt8.ofNat (0xE0 + c / 4096)) >>> 4)).2 < UInt8.ofNat (0x80 + c / 64 % 64)) := by
            simp only [UInt8.lt_iff_toNat_lt, hb2]
            rw [hf]
            by_cases e0 : c / 4096 = 0
            · rw [if_pos e0, show acceptRange (s2 >>> 4) = (0xA0, 0xBF) by decide]; simp; omega
            · rw [if_neg e0]
              by_cases e13 : c / 4096 = 13
              · rw [if_pos e13, show acceptRange (s4 >>> 4) = (0x80, 0x9F) by decide]; simp; omega
              · rw [if_neg e13, show acceptRange (s3 >>> 4) = (0x80, 0xBF) by decide]; simp; omega
          rw [if_neg hacc, if_neg (by omega)]
          simp only [UInt8.lt_iff_toNat_lt, hb3]
          rw [if_neg (by simp; omega), if_pos trivial]
        rw [hcs]
        simp
      · have hu : utf8 c = [UInt8.ofNat (0xF0 + c / 262144), UInt8.ofNat (0x80 + c / 4096 % 64), UInt8.ofNat (0x80 + c / 64 % 64), UInt8.ofNat (0x80 + c % 64)] := by simp [utf8, h1, h2, h3]
        rw [hu, if_neg h1]
        conv => lhs; rw [runeIndex]
        rw [dif_pos (by simp)]
        have hg : (pre ++ [UInt8.ofNat (0xF0 + c / 262144), UInt8.ofNat (0x80 + c / 4096 % 64), UInt8.ofNat (0x80 + c / 64 % 64), UInt8.ofNat (0x80 + c % 64)] ++ post)[pre.length]'(by simp) = UInt8.ofNat (0xF0 + c / 262144) := by simp
        simp only [hg]
        have hb : (UInt8.ofNat (0xF0 + c / 262144)).toNat = 0xF0 + c / 262144 := ofNat_toNat (by omega)
        have hb2 : (UInt8.ofNat (0x80 + c / 4096 % 64)).toNat = 0x80 + c / 4096 % 64 := ofNat_toNat (by omega)
        have hb3 : (UInt8.ofNat (0x80 + c / 64 % 64)).toNat = 0x80 + c / 64 % 64 := ofNat_toNat (by omega)
        have hb4 : (UInt8.ofNat (0x80 + c % 64)).toNat = 0x80 + c % 64 := ofNat_toNat (by omega)
        have hf : first (UInt8.ofNat (0xF0 + c / 262144)) = if c / 262144 = 0 then s5 else if c / 262144 = 4 then s7 else s6 := by
          rw [first_eq, hb, if_neg (by omega), if_neg (by omega), if_neg (by omega), if_neg (by omega), if_neg (by omega), if_neg (by omega)]
          repeat' split
          all_goals first | rfl | omega
        have hat : at' (pre ++ [UInt8.ofNat (0xF0 + c / 262144), UInt8.ofNat (0x80 + c / 4096 % 64), UInt8.ofNat (0x80 + c / 64 % 64), UInt8.ofNat (0x80 + c % 64)] ++ post) (pre.length + 1) = UInt8.ofNat (0x80 + c / 4096 % 64) := by
          apply at_get; simp
        have hat2 : at' (pre ++ [UInt8.ofNat (0xF0 + c / 262144), UInt8.ofNat (0x80 + c / 4096 % 64), UInt8.ofNat (0x80 + c / 64 % 64), UInt8.ofNat (0x80 + c % 64)] ++ post) (pre.length + 2) = UInt8.ofNat (0x80 + c / 64 % 64) := by
          apply at_get; simp
        have hat3 : at' (pre ++ [UInt8.ofNat (0xF0 + c / 262144), UInt8.ofNat (0x80 + c / 4096 % 64), UInt8.ofNat (0x80 + c / 64 % 64), UInt8.ofNat (0x80 + c % 64)] ++ post) (pre.length + 3) = UInt8.ofNat (0x80 + c % 64) := by
          apply at_get; simp
        have hsz : (first (UInt8.ofNat (0xF0 + c / 262144)) &&& 7).toNat = 4 := by
          rw [hf]; repeat' split
          all_goals decide
        rw [dif_neg (by rw [UInt8.lt_iff_toNat_lt, hb]; simp; omega)]
        simp only [hsz]
        rw [dif_neg (by rw [hf]; repeat' split
                        all_goals decide), if_neg (by simp)]
        have hcs : checkedSize (pre ++ [UInt8.ofNat (0xF0 + c / 262144), UInt8.ofNat (0x80 + c / 4096 % 64), UInt8.ofNat (0x80 + c / 64 % 64), UInt8.ofNat (0x80 + c % 64)] ++ post) pre.length
            (first (UInt8.ofNat (0xF0 + c / 262144))) 4 = 4 := by
          simp only [checkedSize, hat, hat2, hat3]
          have hacc : ¬ (UInt8.ofNat (0x80 + c / 4096 % 64) < (acceptRange (first (UInt8.ofNat (0xF0 + c / 262144)) >>> 4)).1 ∨
              (acceptRange (first (UInt8.ofNat (0xF0 + c / 262144)) >>> 4)).2 < UInt8.ofNat (0x80 + c / 4096 % 64)) := by
            simp only [UInt8.lt_iff_toNat_lt, hb2]
            rw [hf]
            by_cases e0 : c / 262144 = 0
            · rw [if_pos e0, show acceptRange (s5 >>> 4) = (0x90, 0xBF) by decide]; simp; omega
            · rw [if_neg e0]
              by_cases e4 : c / 262144 = 4
              · rw [if_pos e4, show acceptRange (s7 >>> 4) = (0x80, 0x8F) by decide]; simp; omega
              · rw [if_neg e4, show acceptRange (s6 >>> 4) = (0x80, 0xBF) by decide]; simp; omega
          rw [if_neg hacc, if_neg (by omega)]
          simp only [UInt8.lt_iff_toNat_lt, hb3, hb4]
          rw [if_neg (by simp; omega), if_neg (by omega), if_neg (by simp; omega)]
        rw [hcs]
        simp

/-- `n` after the characters. -/
def lastN : Nat → List Nat → Nat
  | n, [] => n
  | _, c :: r => lastN (if c < 0x80 then 0 else (utf8 c).length) r

theorem short_iff (c : Nat) : (0 < (if c < 0x80 then 0 else (utf8 c).length) ∧ (if c < 0x80 then 0 else (utf8 c).length) < 3) ↔ TwoBytes c := by
  simp only [TwoBytes, utf8]
  split
  · omega
  · split
    · simp; omega
    · split <;> simp <;> omega

theorem runeIndex_chars (cs : List Nat) : ∀ (pre post : Bytes) (n : Nat), (∀ c ∈ cs, Scalar c) → Smooth cs →
    (∀ c, cs.head? = some c → c < 0x80 → ¬ (0 < n ∧ n < 3)) →
    runeIndex (pre ++ text cs ++ post) pre.length n = runeIndex (pre ++ text cs ++ post) (pre ++ text cs).length (lastN n cs) := by
  induction cs with
  | nil => intro pre post n _ _ _; simp [text, lastN]
  | cons c r ih =>
    intro pre post n hs hsm hn
    have e : pre ++ text (c :: r) ++ post = pre ++ utf8 c ++ (text r ++ post) := by simp [text]
    have e2 : pre ++ utf8 c ++ (text r ++ post) = (pre ++ utf8 c) ++ text r ++ post := by simp
    have hsm' : Smooth r := by
      cases r with
      | nil => trivial
      | cons d r => exact hsm.2
    rw [e, runeIndex_char c (hs c (by simp)) pre _ n (fun h => hn c rfl h.1 h.2), e2,
      ih (pre ++ utf8 c) post _ (fun x hx => hs x (by simp [hx])) hsm']
    · simp [text, lastN, ← List.append_assoc]
    · intro d hd hd2
      rw [short_iff]
      intro h2
      cases r with
      | nil => simp at hd
      | cons d' r =>
        simp only [List.head?_cons, Option.some.injEq] at hd
        subst hd
        exact hsm.1 ⟨h2, hd2⟩

/-- C29 for valid text without a two-byte character before an ASCII character: nothing is cut.  (Missing: the
condition, see `two_byte_character_cut`.) -/
theorem utf8_valid_kept_partial (cs : List Nat) (h : ∀ c ∈ cs, Scalar c) (hs : Smooth cs) : formatUtf8 (text cs) = text cs := by
  have := runeIndex_chars cs [] [] 0 h hs (by simp)
  simp only [List.nil_append, List.append_nil, List.length_nil] at this
  simp only [formatUtf8, this]
  rw [runeIndex, dif_neg (by simp), if_pos rfl]

theorem take_exact (a b : Bytes) (i : Int) (h : i = a.length) (hb : b ≠ []) :
    (if i = (a ++ b).length then a ++ b else if i < 0 then [] else (a ++ b).take i.toNat) = a := by
  have : 0 < b.length := List.length_pos_iff.2 hb
  rw [if_neg (by simp; omega), if_neg (by omega), h]
  simp

/-- C29 fails of the code: valid text is cut before the first two-byte character (Latin, Greek, Cyrillic, ...)
that is followed by an ASCII character, whatever comes after. -/
theorem two_byte_character_cut (cs : List Nat) (h : ∀ c ∈ cs, Scalar c) (c a : Nat) (hs : Smooth (cs ++ [c])) (hc : TwoBytes c)
    (ha : a < 0x80) (rest : Bytes) : formatUtf8 (text cs ++ utf8 c ++ utf8 a ++ rest) = text cs := by
  have hsc : ∀ x ∈ cs ++ [c], Scalar x := by
    intro x hx
    rcases List.mem_append.1 hx with hx | hx
    · exact h x hx
    · simp at hx; subst hx; simp only [TwoBytes] at hc; left; omega
  have h1 := runeIndex_chars (cs ++ [c]) [] (utf8 a ++ rest) 0 hsc hs (by simp)
  have hu : utf8 a = [UInt8.ofNat a] := by simp [utf8, ha]
  have hlen : (utf8 c).length = 2 := by simp only [TwoBytes] at hc; simp [utf8, hc.2, show ¬ c < 128 from by omega]
  have hl : ∀ (l : List Nat) n, lastN n (l ++ [c]) = 2 := by
    intro l
    induction l with
    | nil => intro n; simp only [TwoBytes] at hc; simp [lastN, hlen, show ¬ c < 128 from by omega]
    | cons x r ih => intro n; simp [lastN, ih]
  have e : [] ++ text (cs ++ [c]) ++ (utf8 a ++ rest) = text cs ++ utf8 c ++ utf8 a ++ rest := by simp [text]
  have e0 : [] ++ text (cs ++ [c]) = text cs ++ utf8 c := by simp [text]
  rw [e, e0, hl] at h1
  have h2 : runeIndex (text cs ++ utf8 c ++ utf8 a ++ rest) (text cs ++ utf8 c).length 2 = (text cs).length := by
    rw [hu, runeIndex, dif_pos (by simp)]
    have hg : (text cs ++ utf8 c ++ [UInt8.ofNat a] ++ rest)[(text cs ++ utf8 c).length]'(by simp) = UInt8.ofNat a := by
      rw [List.getElem_append_left (by simp), List.getElem_append_right (by simp)]; simp
    simp only [hg]
    have hlt : UInt8.ofNat a < 0x80 := by rw [UInt8.lt_iff_toNat_lt, ofNat_toNat (by omega)]; simpa using ha
    rw [dif_pos hlt, if_pos (by omega)]
    simp [hlen]
  have e3 : text cs ++ utf8 c ++ utf8 a ++ rest = text cs ++ (utf8 c ++ utf8 a ++ rest) := by simp
  have h3 := take_exact (text cs) (utf8 c ++ utf8 a ++ rest) (runeIndex (text cs ++ utf8 c ++ utf8 a ++ rest) 0 0)
    (by rw [← h2, ← h1]; rfl) (by rw [hu]; simp)
  simp only [formatUtf8]
  rw [← e3] at h3
  exact h3

/-- C29, the purpose of the function: text cut in the middle of a character loses exactly the incomplete
character (three-byte and four-byte characters, and any text before it as in `utf8_valid_kept_partial`, of which
the last character must not be a two-byte one). -/
theorem utf8_truncated_partial (cs : List Nat) (h : ∀ c ∈ cs, Scalar c) (hs : Smooth cs) (hlast : ∀ c, cs.getLast? = some c → ¬ TwoBytes c)
    (c : Nat) (hc : Scalar c) (k : Nat) (hk : 0 < k) (hk2 : k < (utf8 c).length) :
    formatUtf8 (text cs ++ (utf8 c).take k) = text cs := by
  have h1 := runeIndex_chars cs [] ((utf8 c).take k) 0 h hs (by simp)
  simp only [List.nil_append, List.length_nil] at h1
  have hl : ∀ (l : List Nat) n, (∀ c, l.getLast? = some c → ¬ TwoBytes c) → ¬ (0 < n ∧ n < 3) → ¬ (0 < lastN n l ∧ lastN n l < 3) := by
    intro l
    induction l with
    | nil => intro n _ hn; exact hn
    | cons x r ih =>
      intro n hx hn
      simp only [lastN]
      cases r with
      | nil => simp only [lastN]; rw [short_iff]; exact hx x rfl
      | cons y r =>
        have hstep : ∀ m1 m2, lastN m1 (y :: r) = lastN m2 (y :: r) := fun m1 m2 => rfl
        rw [hstep _ 0]
        exact ih 0 (fun c hc => hx c (by simpa using hc)) (by omega)
  have hn := hl cs 0 hlast (by omega)
  -- the first byte of the incomplete character asks for more bytes than there are
  have hc' := hc
  simp only [Scalar] at hc'
  have hfirst : ∃ b t, (utf8 c).take k = b :: t ∧ ¬ b < 0x80 ∧ first b ≠ xx ∧ (first b &&& 7).toNat = (utf8 c).length := by
    have big : ¬ c < 0x80 := by intro hlt; simp [utf8, hlt] at hk2; omega
    have hk1 : k = (k - 1) + 1 := by omega
    rw [hk1]
    by_cases h2 : c < 0x800
    · have hb : (UInt8.ofNat (0xC0 + c / 64)).toNat = 0xC0 + c / 64 := ofNat_toNat (by omega)
      have hf : first (UInt8.ofNat (0xC0 + c / 64)) = s1 := by
        rw [first_eq, hb, if_neg (by omega), if_neg (by omega), if_pos (by omega)]
      simp only [utf8, big, h2, ↓reduceIte]
      refine ⟨_, _, rfl, by rw [UInt8.lt_iff_toNat_lt, hb]; simp; omega, by rw [hf]; decide, by rw [hf]; simp only [List.length_cons, List.length_nil]; decide⟩
    · by_cases h3 : c < 0x10000
      · have hb : (UInt8.ofNat (0xE0 + c / 4096)).toNat = 0xE0 + c / 4096 := ofNat_toNat (by omega)
        have hf : first (UInt8.ofNat (0xE0 + c / 4096)) = if c / 4096 = 0 then s2 else if c / 4096 = 13 then s4 else s3 := by
          rw [first_eq, hb, if_neg (by omega), if_neg (by omega), if_neg (by omega)]
          repeat' split
          all_goals first | rfl | omega
        simp only [utf8, big, h2, h3, ↓reduceIte]
        refine ⟨_, _, rfl, by rw [UInt8.lt_iff_toNat_lt, hb]; simp; omega, ?_, ?_⟩
        · rw [hf]; repeat' split
          all_goals decide
        · simp only [List.length_cons, List.length_nil]; rw [hf]; repeat' split
          all_goals decide
      · have hb : (UInt8.ofNat (0xF0 + c / 262144)).toNat = 0xF0 + c / 262144 := ofNat_toNat (by omega)
        have hf : first (UInt8.ofNat (0xF0 + c / 262144)) = if c / 262144 = 0 then s5 else if c / 262144 = 4 then s7 else s6 := by
          rw [first_eq, hb, if_neg (by omega), if_neg (by omega), if_neg (by omega), if_neg (by omega), if_neg (by omega), if_neg (by omega)]
          repeat' split
          all_goals first | rfl | omega
        simp only [utf8, big, h2, h3, ↓reduceIte]
        refine ⟨_, _, rfl, by rw [UInt8.lt_iff_toNat_lt, hb]; simp; omega, ?_, ?_⟩
        · rw [hf]; repeat' split
          all_goals decide
        · simp only [List.length_cons, List.length_nil]; rw [hf]; repeat' split
          all_goals decide
  obtain ⟨b, t, hbt, hb1, hb2, hb3⟩ := hfirst
  have htl : (b :: t).length = k := by rw [← hbt]; simp; omega
  have h2 : runeIndex (text cs ++ (utf8 c).take k) (text cs).length (lastN 0 cs) = (text cs).length := by
    rw [hbt, runeIndex, dif_pos (by simp)]
    have hg : (text cs ++ b :: t)[(text cs).length]'(by simp) = b := by simp
    simp only [hg]
    rw [dif_neg hb1, dif_neg hb2, hb3]
    rw [if_pos (by rw [List.length_append, htl]; omega), if_neg hn]
  have h3 := take_exact (text cs) ((utf8 c).take k) (runeIndex (text cs ++ (utf8 c).take k) 0 0)
    (by rw [h1, h2]) (by rw [hbt]; simp)
  exact h3

theorem utf8_head (c : Nat) (hc : Scalar c) (t : Bytes) (h : utf8 c ++ t = [0xC3, 0xE4, 0xBD, 0xA0]) : False := by
  simp only [Scalar] at hc
  simp only [utf8] at h
  split at h
  · simp only [List.cons_append, List.cons.injEq] at h
    have := congrArg UInt8.toNat h.1
    rw [ofNat_toNat (by omega)] at this
    simp at this; omega
  · split at h
    · simp only [List.cons_append, List.cons.injEq] at h
      have := congrArg UInt8.toNat h.2.1
      rw [ofNat_toNat (by omega)] at this
      simp at this; omega
    · split at h
      · simp only [List.cons_append, List.cons.injEq] at h
        have := congrArg UInt8.toNat h.1
        rw [ofNat_toNat (by omega)] at this
        simp at this; omega
      · simp only [List.cons_append, List.cons.injEq] at h
        have := congrArg UInt8.toNat h.1
        rw [ofNat_toNat (by omega)] at this
        simp at this; omega

/-- C29 fails of the code: the result need not be valid UTF-8. -/
theorem utf8_result_may_be_invalid : ∃ p, formatUtf8 p = p ∧ ¬ ValidUtf8 p := by
  refine ⟨[0xC3, 0xE4, 0xBD, 0xA0], ?_, ?_⟩
  · have : runeIndex [0xC3, 0xE4, 0xBD, 0xA0] 0 0 = 4 := by
      have f1 : first 0xC3 = s1 := by decide
      have f2 : first 0xE4 = s3 := by decide
      rw [runeIndex]
      simp [f1, show (s1.toNat &&& 7) = 2 by decide, show checkedSize [0xC3, 0xE4, 0xBD, 0xA0] 0 s1 2 = 1 by decide]
      rw [runeIndex]
      simp [f2, show (s3.toNat &&& 7) = 3 by decide, show checkedSize [0xC3, 0xE4, 0xBD, 0xA0] 1 s3 3 = 3 by decide]
      rw [runeIndex]
      simp
      decide
    simp [formatUtf8, this]
  · rintro ⟨cs, hcs, h⟩
    cases cs with
    | nil => simp [text] at h
    | cons c r => exact utf8_head c (hcs c (by simp)) (text r) (by rw [h]; simp [text])

/-- Non-vacuity: `a中` is kept, `é` before `x` is cut. -/
example : Scalar 97 ∧ Scalar 0x4E2D ∧ Smooth [97, 0x4E2D, 98] ∧ TwoBytes 0xE9 := by
  simp only [Scalar, Smooth, TwoBytes]; decide

end Kindling.Text
