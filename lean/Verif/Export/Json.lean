import Verif.Tools.Text
import Verif.Dec
/-
JSON text as `json.Marshal` of Go's standard library writes it, and a reader of JSON text after RFC 8259.  The collector writes
data groups with it (model/data_group.go:11-16, model/attribute_map.go:20-22, 207-209, 235-237, 259-261; the camera exporter's
filewriter.go:105, 193).

Assumed of the library (encoding/json, not part of the repository): strings are written with `"`, `\`, control characters, `<`, `>`,
`&`, U+2028 and U+2029 escaped and every byte that is not part of a UTF-8 character replaced by `\ufffd`; numbers are written in
decimal; nothing is written between tokens.
-/
namespace Kindling.Export.Json
open Kindling.Text

/-! ### UTF-8 -/

def cont (b : UInt8) : Bool := decide (0x80 ≤ b.toNat ∧ b.toNat < 0xC0)

/-- `utf8.DecodeRuneInString`: the character at the front and the rest; `none`: the first byte is not the start of one. -/
def rune : Bytes → Option (Nat × Bytes)
  | [] => none
  | a :: r =>
    if a.toNat < 0x80 then some (a.toNat, r)
    else match r with
    | [] => none
    | b :: r1 =>
      if cont b = false then none
      else if 0xC0 ≤ a.toNat ∧ a.toNat < 0xE0 then
        if 0x80 ≤ (a.toNat - 0xC0) * 64 + (b.toNat - 0x80) then some ((a.toNat - 0xC0) * 64 + (b.toNat - 0x80), r1) else none
      else match r1 with
      | [] => none
      | d :: r2 =>
        if cont d = false then none
        else if 0xE0 ≤ a.toNat ∧ a.toNat < 0xF0 then
          let c := (a.toNat - 0xE0) * 4096 + (b.toNat - 0x80) * 64 + (d.toNat - 0x80)
          if 0x800 ≤ c ∧ (c < 0xD800 ∨ 0xE000 ≤ c) then some (c, r2) else none
        else match r2 with
        | [] => none
        | e :: r3 =>
          if cont e = false then none
          else if 0xF0 ≤ a.toNat then
            let c := (a.toNat - 0xF0) * 262144 + (b.toNat - 0x80) * 4096 + (d.toNat - 0x80) * 64 + (e.toNat - 0x80)
            if 0x10000 ≤ c ∧ c < 0x110000 then some (c, r3) else none
          else none

theorem rune_shorter {s r : Bytes} {c : Nat} (h : rune s = some (c, r)) : r.length < s.length := by
  revert h
  fun_cases rune s <;> intro h <;> simp_all <;> (try omega)
  all_goals (obtain ⟨-, rfl⟩ := h; simp; try omega)

theorem ofNat_toNat' {n : Nat} (h : n < 256) : (UInt8.ofNat n).toNat = n := by
  simp [UInt8.toNat_ofNat']; omega

theorem rune_utf8 {c : Nat} (hc : Scalar c) (r : Bytes) : rune (utf8 c ++ r) = some (c, r) := by
  unfold Scalar at hc
  unfold utf8
  split
  · rename_i h
    simp only [List.cons_append, List.nil_append, rune, ofNat_toNat' (show c < 256 by omega), h, if_true]
  · split
    · rename_i h1 h2
      have e1 : (UInt8.ofNat (0xC0 + c / 64)).toNat = 0xC0 + c / 64 := ofNat_toNat' (by omega)
      have e2 : (UInt8.ofNat (0x80 + c % 64)).toNat = 0x80 + c % 64 := ofNat_toNat' (by omega)
      have c2 : cont (UInt8.ofNat (0x80 + c % 64)) = true := by simp only [cont, e2]; simp; omega
      simp only [List.cons_append, List.nil_append, rune, e1, e2, c2]
      rw [if_neg (by omega), if_neg (by simp), if_pos (by omega), if_pos (by omega)]
      simp only [Option.some.injEq, Prod.mk.injEq, and_true]; omega
    · split
      · rename_i h1 h2 h3
        have e1 : (UInt8.ofNat (0xE0 + c / 4096)).toNat = 0xE0 + c / 4096 := ofNat_toNat' (by omega)
        have e2 : (UInt8.ofNat (0x80 + c / 64 % 64)).toNat = 0x80 + c / 64 % 64 := ofNat_toNat' (by omega)
        have e3 : (UInt8.ofNat (0x80 + c % 64)).toNat = 0x80 + c % 64 := ofNat_toNat' (by omega)
        have c2 : cont (UInt8.ofNat (0x80 + c / 64 % 64)) = true := by simp only [cont, e2]; simp; omega
        have c3 : cont (UInt8.ofNat (0x80 + c % 64)) = true := by simp only [cont, e3]; simp; omega
        simp only [List.cons_append, List.nil_append, rune, e1, e2, e3, c2, c3]
        rw [if_neg (by omega), if_neg (by simp), if_neg (by omega), if_neg (by simp), if_pos (by omega), if_pos (by omega)]
        simp only [Option.some.injEq, Prod.mk.injEq, and_true]; omega
      · rename_i h1 h2 h3
        have e1 : (UInt8.ofNat (0xF0 + c / 262144)).toNat = 0xF0 + c / 262144 := ofNat_toNat' (by omega)
        have e2 : (UInt8.ofNat (0x80 + c / 4096 % 64)).toNat = 0x80 + c / 4096 % 64 := ofNat_toNat' (by omega)
        have e3 : (UInt8.ofNat (0x80 + c / 64 % 64)).toNat = 0x80 + c / 64 % 64 := ofNat_toNat' (by omega)
        have e4 : (UInt8.ofNat (0x80 + c % 64)).toNat = 0x80 + c % 64 := ofNat_toNat' (by omega)
        have c2 : cont (UInt8.ofNat (0x80 + c / 4096 % 64)) = true := by simp only [cont, e2]; simp; omega
        have c3 : cont (UInt8.ofNat (0x80 + c / 64 % 64)) = true := by simp only [cont, e3]; simp; omega
        have c4 : cont (UInt8.ofNat (0x80 + c % 64)) = true := by simp only [cont, e4]; simp; omega
        simp only [List.cons_append, List.nil_append, rune, e1, e2, e3, e4, c2, c3, c4]
        rw [if_neg (by omega), if_neg (by simp), if_neg (by omega), if_neg (by simp), if_neg (by omega), if_neg (by simp), if_pos (by omega),
          if_pos (by omega)]
        simp only [Option.some.injEq, Prod.mk.injEq, and_true]; omega

theorem eq_ofNat {a : UInt8} {n : Nat} (h : a.toNat = n) : a = UInt8.ofNat n := by subst h; simp

theorem rune_sound {s r : Bytes} {c : Nat} (h : rune s = some (c, r)) : Scalar c ∧ s = utf8 c ++ r := by
  revert h
  fun_cases rune s <;> intro h <;> simp only [reduceCtorEq, Option.some.injEq, Prod.mk.injEq] at h
  all_goals obtain ⟨rfl, rfl⟩ := h
  · rename_i a h
    refine ⟨Or.inl (by omega), ?_⟩
    simp [utf8, h]
  · rename_i a h1 b r1 h2 h3 h4
    have hb : cont b = true := by simpa using h2
    simp only [cont, decide_eq_true_eq] at hb
    refine ⟨Or.inl (by omega), ?_⟩
    rw [utf8, if_neg (by omega), if_pos (by omega)]
    simp only [List.cons_append, List.nil_append, List.cons.injEq, and_true]
    exact ⟨eq_ofNat (by omega), eq_ofNat (by omega)⟩
  · rename_i a h1 b h2 h3 d r2 h4 h5 c h6
    have hb : cont b = true := by simpa using h2
    have hd : cont d = true := by simpa using h4
    simp only [cont, decide_eq_true_eq] at hb hd
    simp only [c] at h6 ⊢
    refine ⟨?_, ?_⟩
    · unfold Scalar; omega
    · rw [utf8, if_neg (by omega), if_neg (by omega), if_pos (by omega)]
      simp only [List.cons_append, List.nil_append, List.cons.injEq, and_true]
      exact ⟨eq_ofNat (by omega), eq_ofNat (by omega), eq_ofNat (by omega)⟩
  · rename_i a h1 b h2 h3 d h4 h5 e r3 h6 h7 c h8
    have hb : cont b = true := by simpa using h2
    have hd : cont d = true := by simpa using h4
    have he : cont e = true := by simpa using h6
    simp only [cont, decide_eq_true_eq] at hb hd he
    simp only [c] at h8 ⊢
    refine ⟨Or.inr (by omega), ?_⟩
    rw [utf8, if_neg (by omega), if_neg (by omega), if_neg (by omega)]
    simp only [List.cons_append, List.nil_append, List.cons.injEq, and_true]
    exact ⟨eq_ofNat (by omega), eq_ofNat (by omega), eq_ofNat (by omega), eq_ofNat (by omega)⟩

/-- The characters of a Go string, `none` for a byte that belongs to none. -/
def runes (s : Bytes) : List (Option Nat) :=
  match s with
  | [] => []
  | a :: r => match h : rune (a :: r) with
    | none => none :: runes r
    | some (c, r') => some c :: runes r'
termination_by s.length
decreasing_by
  · simp
  · exact rune_shorter h

theorem runes_scalar (s : Bytes) : ∀ c, some c ∈ runes s → Scalar c := by
  fun_induction runes s with
  | case1 => simp
  | case2 a r h ih => intro c hc; simp only [List.mem_cons, reduceCtorEq, false_or] at hc; exact ih c hc
  | case3 a r c r' h ih =>
    intro d hd
    simp only [List.mem_cons, Option.some.injEq] at hd
    cases hd with
    | inl e => subst e; exact (rune_sound h).1
    | inr e => exact ih d e

theorem runes_text (cs : List Nat) (h : ∀ c ∈ cs, Scalar c) : runes (text cs) = cs.map some := by
  induction cs with
  | nil => simp [text, runes]
  | cons c r ih =>
    have hc := rune_utf8 (h c (List.mem_cons_self ..)) (text r)
    have ht : text (c :: r) = utf8 c ++ text r := by simp [text]
    rw [ht]
    cases hu : utf8 c ++ text r with
    | nil => rw [hu] at hc; simp [rune] at hc
    | cons a t =>
      rw [hu] at hc
      rw [runes]
      split
      · rename_i hn; rw [hc] at hn; cases hn
      · rename_i c' r' hn
        rw [hc] at hn; cases hn
        rw [ih (fun x hx => h x (List.mem_cons_of_mem _ hx))]; rfl

/-- The characters a reader of the JSON text sees: U+FFFD in place of stray bytes. -/
def codes (s : Bytes) : List Nat := (runes s).map (fun o => o.getD 0xFFFD)

/-- The text a reader sees. -/
def clean (s : Bytes) : Bytes := text (codes s)

theorem codes_scalar (s : Bytes) : ∀ c ∈ codes s, Scalar c := by
  intro c hc
  simp only [codes, List.mem_map] at hc
  obtain ⟨o, ho, rfl⟩ := hc
  cases o with
  | none => right; simp
  | some d => exact runes_scalar s d ho

theorem clean_valid {s : Bytes} (h : ValidUtf8 s) : clean s = s := by
  obtain ⟨cs, hcs, rfl⟩ := h
  simp only [clean, codes, runes_text cs hcs, List.map_map]
  congr 1
  exact List.map_id' _

/-! ### Strings -/

def hex (n : Nat) : UInt8 := if n < 10 then UInt8.ofNat (48 + n) else UInt8.ofNat (87 + n)

def hex4 (c : Nat) : Bytes := [hex (c / 4096 % 16), hex (c / 256 % 16), hex (c / 16 % 16), hex (c % 16)]

/-- How a character is written between the quotes. -/
def esc (c : Nat) : Bytes :=
  if c = 0x22 then [92, 34]
  else if c = 0x5C then [92, 92]
  else if c = 10 then [92, 110]
  else if c = 13 then [92, 114]
  else if c = 9 then [92, 116]
  else if c < 0x20 ∨ c = 0x3C ∨ c = 0x3E ∨ c = 0x26 ∨ c = 0x2028 ∨ c = 0x2029 then 92 :: 117 :: hex4 c
  else utf8 c

def encRune : Option Nat → Bytes
  | none => 92 :: 117 :: hex4 0xFFFD
  | some c => esc c

def quoted (s : Bytes) : Bytes := 34 :: ((runes s).flatMap encRune ++ [34])

/-- A hexadecimal digit (RFC 8259, section 7). -/
def unhex (b : UInt8) : Option Nat :=
  if 48 ≤ b.toNat ∧ b.toNat ≤ 57 then some (b.toNat - 48)
  else if 97 ≤ b.toNat ∧ b.toNat ≤ 102 then some (b.toNat - 87)
  else if 65 ≤ b.toNat ∧ b.toNat ≤ 70 then some (b.toNat - 55)
  else none

def unhex4 (a b c d : UInt8) : Option Nat := match unhex a, unhex b, unhex c, unhex d with
  | some w, some x, some y, some z => some (w * 4096 + x * 256 + y * 16 + z)
  | _, _, _, _ => none

/-- What follows a backslash (RFC 8259, section 7). Escaped surrogates, which the writer never produces, are refused. -/
def escape : Bytes → Option (Nat × Bytes)
  | 34 :: r => some (34, r)
  | 92 :: r => some (92, r)
  | 47 :: r => some (47, r)
  | 98 :: r => some (8, r)
  | 102 :: r => some (12, r)
  | 110 :: r => some (10, r)
  | 114 :: r => some (13, r)
  | 116 :: r => some (9, r)
  | 117 :: a :: b :: c :: d :: r => match unhex4 a b c d with
    | some n => if n < 0xD800 ∨ 0xE000 ≤ n then some (n, r) else none
    | none => none
  | _ => none

/-- The next character of a string, `none` for the closing quote (RFC 8259, section 7). -/
def one : Bytes → Option (Option Nat × Bytes)
  | [] => none
  | a :: r =>
    if a = 34 then some (none, r)
    else if a = 92 then (escape r).map (fun x => (some x.1, x.2))
    else if a.toNat < 0x20 then none
    else (rune (a :: r)).map (fun x => (some x.1, x.2))

theorem escape_shorter {s r : Bytes} {c : Nat} (h : escape s = some (c, r)) : r.length < s.length := by
  revert h
  fun_cases escape s <;> intro h <;> simp_all <;> (try omega)

theorem one_shorter {s r : Bytes} {o : Option Nat} (h : one s = some (o, r)) : r.length < s.length := by
  cases s with
  | nil => simp [one] at h
  | cons a t =>
    simp only [one] at h
    split at h
    · cases h; simp
    · split at h
      · cases he : escape t with
        | none => rw [he] at h; cases h
        | some x => rw [he] at h; cases h; have := escape_shorter he; simp; omega
      · split at h
        · cases h
        · cases he : rune (a :: t) with
          | none => rw [he] at h; cases h
          | some x => rw [he] at h; cases h; exact rune_shorter he

/-- The characters up to the closing quote and what follows it. -/
def chars (s : Bytes) : Option (List Nat × Bytes) :=
  match h : one s with
  | none => none
  | some (none, r) => some ([], r)
  | some (some c, r) => (chars r).map (fun x => (c :: x.1, x.2))
termination_by s.length
decreasing_by exact one_shorter h

theorem hex_toNat {n : Nat} (h : n < 16) : (hex n).toNat = if n < 10 then 48 + n else 87 + n := by
  unfold hex; split <;> exact ofNat_toNat' (by omega)

theorem unhex_hex {n : Nat} (h : n < 16) : unhex (hex n) = some n := by
  unfold unhex
  rw [hex_toNat h]
  by_cases h1 : n < 10
  · simp only [h1, if_true]; rw [if_pos (by omega)]; congr 1; omega
  · simp only [h1, if_false]; rw [if_neg (by omega), if_pos (by omega)]; congr 1; omega

theorem unhex4_hex4 {c : Nat} (h : c < 65536) :
    unhex4 (hex (c / 4096 % 16)) (hex (c / 256 % 16)) (hex (c / 16 % 16)) (hex (c % 16)) = some c := by
  simp only [unhex4, unhex_hex (show c / 4096 % 16 < 16 by omega), unhex_hex (show c / 256 % 16 < 16 by omega),
    unhex_hex (show c / 16 % 16 < 16 by omega), unhex_hex (show c % 16 < 16 by omega)]
  congr 1; omega

theorem escape_u {c : Nat} (h : c < 65536) (hc : Scalar c) (r : Bytes) : escape (117 :: (hex4 c ++ r)) = some (c, r) := by
  simp only [hex4, List.cons_append, List.nil_append, escape, unhex4_hex4 h]
  unfold Scalar at hc
  rw [if_pos (by omega)]

theorem utf8_first {c : Nat} (hc : Scalar c) (h1 : 0x20 ≤ c) : ∃ a t, utf8 c = a :: t ∧ 0x20 ≤ a.toNat ∧ (a.toNat = c ∨ 0x80 ≤ a.toNat) := by
  unfold Scalar at hc
  unfold utf8
  split
  · exact ⟨_, _, rfl, by rw [ofNat_toNat' (by omega)]; omega, Or.inl (ofNat_toNat' (by omega))⟩
  · split
    · exact ⟨_, _, rfl, by rw [ofNat_toNat' (by omega)]; omega, Or.inr (by rw [ofNat_toNat' (by omega)]; omega)⟩
    · split
      · exact ⟨_, _, rfl, by rw [ofNat_toNat' (by omega)]; omega, Or.inr (by rw [ofNat_toNat' (by omega)]; omega)⟩
      · exact ⟨_, _, rfl, by rw [ofNat_toNat' (by omega)]; omega, Or.inr (by rw [ofNat_toNat' (by omega)]; omega)⟩

theorem one_u {c : Nat} (h : c < 65536) (hc : Scalar c) (r : Bytes) : one (92 :: 117 :: (hex4 c ++ r)) = some (some c, r) := by
  simp only [one]
  rw [if_neg (by decide), if_pos trivial, escape_u h hc]; rfl

theorem one_esc {c : Nat} (hc : Scalar c) (r : Bytes) : one (esc c ++ r) = some (some c, r) := by
  unfold esc
  split
  · rename_i h; subst h; simp [one, escape]
  · split
    · rename_i h; subst h; simp [one, escape]
    · split
      · rename_i h; subst h; simp [one, escape]
      · split
        · rename_i h; subst h; simp [one, escape]
        · split
          · rename_i h; subst h; simp [one, escape]
          · split
            · exact one_u (by omega) hc r
            · rename_i h1 h2 h3 h4 h5 h6
              obtain ⟨a, t, he, ha, ho⟩ := utf8_first hc (by omega)
              have hr := rune_utf8 hc r
              rw [he] at hr ⊢
              simp only [List.cons_append] at hr ⊢
              have n1 : a ≠ 34 := by rintro rfl; simp at ho; omega
              have n2 : a ≠ 92 := by rintro rfl; simp at ho; omega
              simp only [one, n1, n2, if_false]
              rw [if_neg (by omega), hr]; rfl

theorem chars_step {s r : Bytes} {c : Nat} (h : one s = some (some c, r)) : chars s = (chars r).map (fun x => (c :: x.1, x.2)) := by
  rw [chars]
  split
  · rename_i hn; rw [h] at hn; cases hn
  · rename_i hn; rw [h] at hn; cases hn
  · rename_i hn; rw [h] at hn; cases hn; rfl

theorem chars_end (r : Bytes) : chars (34 :: r) = some ([], r) := by
  rw [chars]
  split
  · rename_i hn; simp [one] at hn
  · rename_i hn; simp [one] at hn; rw [hn]
  · rename_i hn; simp [one] at hn

theorem chars_enc (l : List (Option Nat)) (hl : ∀ c, some c ∈ l → Scalar c) (r : Bytes) :
    chars (l.flatMap encRune ++ 34 :: r) = some (l.map (fun o => o.getD 0xFFFD), r) := by
  induction l with
  | nil => simpa using chars_end r
  | cons o t ih =>
    have ih := ih (fun c hc => hl c (List.mem_cons_of_mem _ hc))
    have h1 : one ((o :: t).flatMap encRune ++ 34 :: r) = some (some (o.getD 0xFFFD), t.flatMap encRune ++ 34 :: r) := by
      rw [List.flatMap_cons, List.append_assoc]
      cases o with
      | none => exact one_u (by omega) (Or.inr (by omega)) _
      | some c => exact one_esc (hl c (List.mem_cons_self ..)) _
    rw [chars_step h1, ih]; rfl

/-- A string is read back, stray bytes as U+FFFD. -/
theorem string_back (s r : Bytes) : ∃ t, quoted s ++ r = 34 :: t ∧ chars t = some (codes s, r) := by
  refine ⟨(runes s).flatMap encRune ++ 34 :: r, by simp [quoted], chars_enc _ (runes_scalar s) r⟩

/-! ### Tokens -/

inductive Tok
  | lb | rb | lk | rk | comma | colon
  | str (s : Bytes)
  | num (i : Int)
  | tt | ff | null
deriving DecidableEq

def Tok.bytes : Tok → Bytes
  | .lb => [123]
  | .rb => [125]
  | .lk => [91]
  | .rk => [93]
  | .comma => [44]
  | .colon => [58]
  | .str s => quoted s
  | .num i => Dec.formatInt i
  | .tt => bs "true"
  | .ff => bs "false"
  | .null => bs "null"

def Tok.isNum : Tok → Bool
  | .num _ => true
  | _ => false

/-- The token as a reader sees it. -/
def Tok.clean : Tok → Tok
  | .str s => .str (Json.clean s)
  | t => t

def isDigit (b : UInt8) : Bool := decide (48 ≤ b.toNat ∧ b.toNat ≤ 57)

/-- A number without sign, fraction and exponent (RFC 8259, section 6): no superfluous zeros in front. -/
def natural (s : Bytes) : Option (Nat × Bytes) :=
  let d := s.takeWhile isDigit
  if d.head? = some 48 ∧ 1 < d.length then none
  else (Dec.parseNat d).map (fun n => (n, s.dropWhile isDigit))

/-- The first token (RFC 8259, sections 2, 3, 6 and 7); white space, fractions and exponents, which the writer never produces, are
refused. -/
def lexOne : Bytes → Option (Tok × Bytes)
  | 123 :: r => some (.lb, r)
  | 125 :: r => some (.rb, r)
  | 91 :: r => some (.lk, r)
  | 93 :: r => some (.rk, r)
  | 44 :: r => some (.comma, r)
  | 58 :: r => some (.colon, r)
  | 34 :: r => (chars r).map (fun x => (.str (text x.1), x.2))
  | 116 :: 114 :: 117 :: 101 :: r => some (.tt, r)
  | 102 :: 97 :: 108 :: 115 :: 101 :: r => some (.ff, r)
  | 110 :: 117 :: 108 :: 108 :: r => some (.null, r)
  | 45 :: r => (natural r).map (fun x => (.num (-x.1), x.2))
  | r => (natural r).map (fun x => (.num x.1, x.2))

/-- All tokens, `n` at most. -/
def lexN : Nat → Bytes → Option (List Tok)
  | _, [] => some []
  | 0, _ => none
  | n + 1, s => match lexOne s with
    | none => none
    | some (t, r) => (lexN n r).map (t :: ·)

def lex (s : Bytes) : Option (List Tok) := lexN s.length s

theorem digits_head (n : Nat) : (Dec.digits n).head? = some 48 → n = 0 := by
  fun_induction Dec.digits n with
  | case1 n h =>
    intro hh
    simp only [List.head?_cons, Option.some.injEq] at hh
    have := congrArg UInt8.toNat hh
    rw [Dec.digit_toNat h] at this
    simp at this; omega
  | case2 n h ih =>
    intro hh
    have hne := Dec.digits_ne_nil (n / 10)
    cases hd : Dec.digits (n / 10) with
    | nil => exact absurd hd hne
    | cons a t =>
      rw [hd] at hh ih
      simp only [List.cons_append, List.head?_cons] at hh ih
      have := ih hh
      omega

theorem takeWhile_digits (n : Nat) (r : Bytes) (hr : ∀ b, r.head? = some b → isDigit b = false) :
    (Dec.digits n ++ r).takeWhile isDigit = Dec.digits n ∧ (Dec.digits n ++ r).dropWhile isDigit = r := by
  have ha := Dec.digits_all n
  generalize Dec.digits n = d at ha
  induction d with
  | nil =>
    cases r with
    | nil => simp
    | cons b t => have := hr b rfl; simp [List.takeWhile, List.dropWhile, this]
  | cons a t ih =>
    have h1 : isDigit a = true := by simpa [isDigit] using ha a (List.mem_cons_self ..)
    obtain ⟨i1, i2⟩ := ih (fun b hb => ha b (List.mem_cons_of_mem _ hb))
    simp [h1, i1, i2]

theorem natural_digits (n : Nat) (r : Bytes) (hr : ∀ b, r.head? = some b → isDigit b = false) :
    natural (Dec.digits n ++ r) = some (n, r) := by
  obtain ⟨h1, h2⟩ := takeWhile_digits n r hr
  simp only [natural, h1, h2, Dec.parseNat_digits]
  rw [if_neg]
  · rfl
  · rintro ⟨ha, hb⟩
    have := digits_head n ha
    subst this
    rw [Dec.digits, if_pos (by omega)] at hb
    simp at hb

theorem lexOne_digit (s : Bytes) (h : ∀ b, s.head? = some b → isDigit b = true) (hne : s ≠ []) :
    lexOne s = (natural s).map (fun x => (.num x.1, x.2)) := by
  cases s with
  | nil => exact absurd rfl hne
  | cons a t =>
    have ha : isDigit a = true := h a rfl
    simp only [isDigit, decide_eq_true_eq] at ha
    have hv : a = 48 ∨ a = 49 ∨ a = 50 ∨ a = 51 ∨ a = 52 ∨ a = 53 ∨ a = 54 ∨ a = 55 ∨ a = 56 ∨ a = 57 := by
      simp only [← UInt8.toNat_inj]; simp; omega
    rcases hv with e | e | e | e | e | e | e | e | e | e <;> subst e <;> simp [lexOne]

theorem lexOne_tok (t : Tok) (r : Bytes) (hr : t.isNum = true → ∀ b, r.head? = some b → isDigit b = false) :
    lexOne (t.bytes ++ r) = some (t.clean, r) := by
  cases t with
  | str s =>
    obtain ⟨u, h1, h2⟩ := string_back s r
    simp only [Tok.bytes, h1, lexOne, h2, Option.map_some, Tok.clean, clean]
  | num i =>
    have hr := hr rfl
    simp only [Tok.bytes, Dec.formatInt, Tok.clean]
    split
    · rename_i h
      simp only [List.cons_append, lexOne, natural_digits _ r hr, Option.map_some, Option.some.injEq, Prod.mk.injEq, Tok.num.injEq, and_true]
      omega
    · rename_i h
      rw [lexOne_digit, natural_digits _ r hr]
      · simp only [Option.map_some, Option.some.injEq, Prod.mk.injEq, Tok.num.injEq, and_true]; omega
      · intro b hb
        have := Dec.digits_all i.natAbs
        have hne := Dec.digits_ne_nil i.natAbs
        cases hd : Dec.digits i.natAbs with
        | nil => exact absurd hd hne
        | cons x y =>
          rw [hd] at hb this
          simp only [List.cons_append, List.head?_cons, Option.some.injEq] at hb
          subst hb
          simpa [isDigit] using this x (List.mem_cons_self ..)
      · intro hc; exact Dec.digits_ne_nil _ (List.append_eq_nil_iff.mp hc).1
  | tt => have h : bs "true" = [116, 114, 117, 101] := by decide
          simp [Tok.bytes, Tok.clean, lexOne, h]
  | ff => have h : bs "false" = [102, 97, 108, 115, 101] := by decide
          simp [Tok.bytes, Tok.clean, lexOne, h]
  | null => have h : bs "null" = [110, 117, 108, 108] := by decide
            simp [Tok.bytes, Tok.clean, lexOne, h]
  | _ => simp [Tok.bytes, Tok.clean, lexOne]

/-- Two numbers in a row would run into each other. -/
def Apart (a b : Tok) : Prop := ¬ (a.isNum = true ∧ b.isNum = true)

def Spaced : List Tok → Prop
  | [] => True
  | [_] => True
  | a :: b :: r => Apart a b ∧ Spaced (b :: r)

theorem Spaced.tail {a : Tok} {r : List Tok} (h : Spaced (a :: r)) : Spaced r := by
  cases r with
  | nil => trivial
  | cons b s => exact h.2

theorem bytes_ne_nil (t : Tok) : t.bytes ≠ [] := by
  cases t with
  | num i => simp only [Tok.bytes, Dec.formatInt]; split; · simp
             · exact Dec.digits_ne_nil _
  | _ => simp [Tok.bytes, quoted, bs]

theorem first_digit (t : Tok) (r : Bytes) (b : UInt8) (h : (t.bytes ++ r).head? = some b) (hn : t.isNum = false) : isDigit b = false := by
  cases t with
  | num i => cases hn
  | str s => simp [Tok.bytes, quoted] at h; subst h; decide
  | tt => have e : bs "true" = [116, 114, 117, 101] := by decide
          simp [Tok.bytes, e] at h; subst h; decide
  | ff => have e : bs "false" = [102, 97, 108, 115, 101] := by decide
          simp [Tok.bytes, e] at h; subst h; decide
  | null => have e : bs "null" = [110, 117, 108, 108] := by decide
            simp [Tok.bytes, e] at h; subst h; decide
  | _ => simp [Tok.bytes] at h; subst h; decide

theorem lexN_toks (ts : List Tok) (h : Spaced ts) (n : Nat) (hn : ts.length ≤ n) :
    lexN n (ts.flatMap Tok.bytes) = some (ts.map Tok.clean) := by
  induction ts generalizing n with
  | nil => simp [lexN]
  | cons t r ih =>
    cases n with
    | zero => simp at hn
    | succ n =>
      have hne : (t :: r).flatMap Tok.bytes ≠ [] := by
        intro hc; rw [List.flatMap_cons] at hc; exact bytes_ne_nil t (List.append_eq_nil_iff.mp hc).1
      have h1 : lexOne ((t :: r).flatMap Tok.bytes) = some (t.clean, r.flatMap Tok.bytes) := by
        rw [List.flatMap_cons]
        refine lexOne_tok t _ ?_
        intro ht b hb
        cases r with
        | nil => simp at hb
        | cons u v =>
          rw [List.flatMap_cons] at hb
          refine first_digit u _ b hb ?_
          have := h.1
          simp only [Apart, ht, true_and] at this
          simpa using this
      have h2 := ih h.tail n (by simpa using hn)
      cases hx : (t :: r).flatMap Tok.bytes with
      | nil => exact absurd hx hne
      | cons a s =>
        rw [hx] at h1
        simp only [lexN, h1, h2, Option.map_some, List.map_cons]

theorem length_le (ts : List Tok) : ts.length ≤ (ts.flatMap Tok.bytes).length := by
  induction ts with
  | nil => simp
  | cons t r ih =>
    have := List.length_pos_iff.mpr (bytes_ne_nil t)
    rw [List.flatMap_cons, List.length_append, List.length_cons]; omega

/-- Tokens are read back. -/
theorem lex_toks (ts : List Tok) (h : Spaced ts) : lex (ts.flatMap Tok.bytes) = some (ts.map Tok.clean) :=
  lexN_toks ts h _ (length_le ts)

/-! ### Values -/

mutual
/-- A JSON value with whole numbers. -/
inductive J
  | null
  | bool (b : Bool)
  | num (i : Int)
  | str (s : Bytes)
  | arr (l : Js)
  | obj (l : Ms)
/-- Elements. -/
inductive Js
  | nil
  | cons (j : J) (l : Js)
/-- Members. -/
inductive Ms
  | nil
  | cons (k : Bytes) (v : J) (l : Ms)
end

mutual
/-- The tokens `json.Marshal` writes. -/
def toks : J → List Tok
  | .null => [.null]
  | .bool true => [.tt]
  | .bool false => [.ff]
  | .num i => [.num i]
  | .str s => [.str s]
  | .arr .nil => [.lk, .rk]
  | .arr (.cons j l) => .lk :: (toks j ++ more l)
  | .obj .nil => [.lb, .rb]
  | .obj (.cons k v l) => .lb :: .str k :: .colon :: (toks v ++ moreO l)
def more : Js → List Tok
  | .nil => [.rk]
  | .cons j l => .comma :: (toks j ++ more l)
def moreO : Ms → List Tok
  | .nil => [.rb]
  | .cons k v l => .comma :: .str k :: .colon :: (toks v ++ moreO l)
end

/-- `json.Marshal`. -/
def print (j : J) : Bytes := (toks j).flatMap Tok.bytes

mutual
/-- The value at the front of a list of tokens (RFC 8259, sections 3 to 5), `n` levels and elements at most. -/
def value : Nat → List Tok → Option (J × List Tok)
  | 0, _ => none
  | n + 1, ts => match ts with
    | .null :: r => some (.null, r)
    | .tt :: r => some (.bool true, r)
    | .ff :: r => some (.bool false, r)
    | .num i :: r => some (.num i, r)
    | .str s :: r => some (.str s, r)
    | .lk :: .rk :: r => some (.arr .nil, r)
    | .lk :: r => match value n r with
      | none => none
      | some (j, r') => (elems n r').map (fun x => (.arr (.cons j x.1), x.2))
    | .lb :: .rb :: r => some (.obj .nil, r)
    | .lb :: .str k :: .colon :: r => match value n r with
      | none => none
      | some (v, r') => (members n r').map (fun x => (.obj (.cons k v x.1), x.2))
    | _ => none
def elems : Nat → List Tok → Option (Js × List Tok)
  | 0, _ => none
  | n + 1, ts => match ts with
    | .rk :: r => some (.nil, r)
    | .comma :: r => match value n r with
      | none => none
      | some (j, r') => (elems n r').map (fun x => (.cons j x.1, x.2))
    | _ => none
def members : Nat → List Tok → Option (Ms × List Tok)
  | 0, _ => none
  | n + 1, ts => match ts with
    | .rb :: r => some (.nil, r)
    | .comma :: .str k :: .colon :: r => match value n r with
      | none => none
      | some (v, r') => (members n r').map (fun x => (.cons k v x.1, x.2))
    | _ => none
end

/-- A JSON text (RFC 8259, section 2): one value and nothing after it. -/
def read (s : Bytes) : Option J := match lex s with
  | none => none
  | some ts => match value ts.length ts with
    | some (j, []) => some j
    | _ => none

mutual
/-- The value as a reader sees it. -/
def J.clean : J → J
  | .null => .null
  | .bool b => .bool b
  | .num i => .num i
  | .str s => .str (Json.clean s)
  | .arr l => .arr l.clean
  | .obj l => .obj l.clean
def Js.clean : Js → Js
  | .nil => .nil
  | .cons j l => .cons j.clean l.clean
def Ms.clean : Ms → Ms
  | .nil => .nil
  | .cons k v l => .cons (Json.clean k) v.clean l.clean
end

mutual
theorem toks_clean : ∀ j : J, toks j.clean = (toks j).map Tok.clean
  | .null => rfl
  | .bool true => rfl
  | .bool false => rfl
  | .num _ => rfl
  | .str _ => rfl
  | .arr .nil => rfl
  | .arr (.cons j l) => by simp [J.clean, Js.clean, toks, toks_clean j, more_clean l, Tok.clean]
  | .obj .nil => rfl
  | .obj (.cons k v l) => by simp [J.clean, Ms.clean, toks, toks_clean v, moreO_clean l, Tok.clean]
theorem more_clean : ∀ l : Js, more l.clean = (more l).map Tok.clean
  | .nil => rfl
  | .cons j l => by simp [Js.clean, more, toks_clean j, more_clean l, Tok.clean]
theorem moreO_clean : ∀ l : Ms, moreO l.clean = (moreO l).map Tok.clean
  | .nil => rfl
  | .cons k v l => by simp [Ms.clean, moreO, toks_clean v, moreO_clean l, Tok.clean]
end

theorem spaced_cons {a : Tok} {r : List Tok} (ha : a.isNum = false) (h : Spaced r) : Spaced (a :: r) := by
  cases r with
  | nil => trivial
  | cons b s => exact ⟨by simp [Apart, ha], h⟩

theorem spaced_cons' {a : Tok} {r : List Tok} (hr : ∀ t, r.head? = some t → t.isNum = false) (h : Spaced r) : Spaced (a :: r) := by
  cases r with
  | nil => trivial
  | cons b s => exact ⟨by simp [Apart, hr b rfl], h⟩

mutual
theorem toks_spaced : ∀ (j : J) (r : List Tok), Spaced r → (∀ t, r.head? = some t → t.isNum = false) → Spaced (toks j ++ r)
  | .null, _, h, _ => spaced_cons rfl h
  | .bool true, _, h, _ => spaced_cons rfl h
  | .bool false, _, h, _ => spaced_cons rfl h
  | .num _, _, h, hr => spaced_cons' hr h
  | .str _, _, h, _ => spaced_cons rfl h
  | .arr .nil, _, h, _ => spaced_cons rfl (spaced_cons rfl h)
  | .arr (.cons j l), r, h, _ => by
    simp only [toks, List.cons_append, List.append_assoc]
    exact spaced_cons rfl (toks_spaced j _ (more_spaced l r h).1 (more_spaced l r h).2)
  | .obj .nil, _, h, _ => spaced_cons rfl (spaced_cons rfl h)
  | .obj (.cons k v l), r, h, _ => by
    simp only [toks, List.cons_append, List.append_assoc]
    exact spaced_cons rfl (spaced_cons rfl (spaced_cons rfl (toks_spaced v _ (moreO_spaced l r h).1 (moreO_spaced l r h).2)))
theorem more_spaced : ∀ (l : Js) (r : List Tok), Spaced r → Spaced (more l ++ r) ∧ ∀ t, (more l ++ r).head? = some t → t.isNum = false
  | .nil, _, h => ⟨spaced_cons rfl h, by simp [more, Tok.isNum]⟩
  | .cons j l, r, h => by
    simp only [more, List.cons_append, List.append_assoc]
    exact ⟨spaced_cons rfl (toks_spaced j _ (more_spaced l r h).1 (more_spaced l r h).2), by simp [Tok.isNum]⟩
theorem moreO_spaced : ∀ (l : Ms) (r : List Tok), Spaced r → Spaced (moreO l ++ r) ∧ ∀ t, (moreO l ++ r).head? = some t → t.isNum = false
  | .nil, _, h => ⟨spaced_cons rfl h, by simp [moreO, Tok.isNum]⟩
  | .cons k v l, r, h => by
    simp only [moreO, List.cons_append, List.append_assoc]
    exact ⟨spaced_cons rfl (spaced_cons rfl (spaced_cons rfl (toks_spaced v _ (moreO_spaced l r h).1 (moreO_spaced l r h).2))),
      by simp [Tok.isNum]⟩
end

theorem toks_head (j : J) : ∃ t r, toks j = t :: r ∧ t ≠ .rk := by
  match j with
  | .null => exact ⟨_, _, rfl, by simp⟩
  | .bool true => exact ⟨_, _, rfl, by simp⟩
  | .bool false => exact ⟨_, _, rfl, by simp⟩
  | .num _ => exact ⟨_, _, rfl, by simp⟩
  | .str _ => exact ⟨_, _, rfl, by simp⟩
  | .arr .nil => exact ⟨_, _, rfl, by simp⟩
  | .arr (.cons _ _) => exact ⟨_, _, rfl, by simp⟩
  | .obj .nil => exact ⟨_, _, rfl, by simp⟩
  | .obj (.cons _ _ _) => exact ⟨_, _, rfl, by simp⟩

theorem value_lk (n : Nat) (t : Tok) (r : List Tok) (h : t ≠ .rk) : value (n + 1) (.lk :: t :: r) = (match value n (t :: r) with
    | none => none
    | some (j, r') => (elems n r').map (fun x => (.arr (.cons j x.1), x.2))) := by
  cases t <;> first | (exact absurd rfl h) | rw [value]
  all_goals simp

mutual
theorem value_toks : ∀ (j : J) (n : Nat) (r : List Tok), (toks j).length ≤ n → value n (toks j ++ r) = some (j, r)
  | .null, n + 1, r, _ => by simp [toks, value]
  | .bool true, n + 1, r, _ => by simp [toks, value]
  | .bool false, n + 1, r, _ => by simp [toks, value]
  | .num i, n + 1, r, _ => by simp [toks, value]
  | .str s, n + 1, r, _ => by simp [toks, value]
  | .arr .nil, n + 1, r, _ => by simp [toks, value]
  | .arr (.cons j l), n + 1, r, h => by
    simp only [toks, List.length_cons, List.length_append] at h
    have h1 := value_toks j n (more l ++ r) (by omega)
    have h2 := elems_more l n r (by omega)
    obtain ⟨t, u, he, ht⟩ := toks_head j
    simp only [toks, List.cons_append, List.append_assoc]
    rw [he] at h1 ⊢
    rw [List.cons_append] at h1 ⊢
    rw [value_lk n _ _ ht, h1]
    simp only [h2, Option.map_some]
  | .obj .nil, n + 1, r, _ => by simp [toks, value]
  | .obj (.cons k v l), n + 1, r, h => by
    simp only [toks, List.length_cons, List.length_append] at h
    have h1 := value_toks v n (moreO l ++ r) (by omega)
    have h2 := members_moreO l n r (by omega)
    simp only [toks, List.cons_append, List.append_assoc, value, h1, h2, Option.map_some]
  | .null, 0, _, h | .bool true, 0, _, h | .bool false, 0, _, h | .num _, 0, _, h | .str _, 0, _, h | .arr .nil, 0, _, h
  | .arr (.cons _ _), 0, _, h | .obj .nil, 0, _, h | .obj (.cons _ _ _), 0, _, h => by simp [toks] at h
theorem elems_more : ∀ (l : Js) (n : Nat) (r : List Tok), (more l).length ≤ n → elems n (more l ++ r) = some (l, r)
  | .nil, n + 1, r, _ => by simp [more, elems]
  | .cons j l, n + 1, r, h => by
    simp only [more, List.length_cons, List.length_append] at h
    have h1 := value_toks j n (more l ++ r) (by omega)
    have h2 := elems_more l n r (by omega)
    simp only [more, List.cons_append, List.append_assoc, elems, h1, h2, Option.map_some]
  | .nil, 0, _, h | .cons _ _, 0, _, h => by simp [more] at h
theorem members_moreO : ∀ (l : Ms) (n : Nat) (r : List Tok), (moreO l).length ≤ n → members n (moreO l ++ r) = some (l, r)
  | .nil, n + 1, r, _ => by simp [moreO, members]
  | .cons k v l, n + 1, r, h => by
    simp only [moreO, List.length_cons, List.length_append] at h
    have h1 := value_toks v n (moreO l ++ r) (by omega)
    have h2 := members_moreO l n r (by omega)
    simp only [moreO, List.cons_append, List.append_assoc, members, h1, h2, Option.map_some]
  | .nil, 0, _, h | .cons _ _ _, 0, _, h => by simp [moreO] at h
end

/-- What is written is JSON, and reads as the value that was written, stray bytes as U+FFFD. -/
theorem read_print (j : J) : read (print j) = some j.clean := by
  have h1 : Spaced (toks j) := by simpa using toks_spaced j [] trivial (by simp)
  have h2 := value_toks j.clean (toks j.clean).length [] (Nat.le_refl _)
  rw [List.append_nil] at h2
  simp only [read, print, lex_toks _ h1, ← toks_clean, h2]

/-! ### No line ends -/

theorem utf8_printable {c : Nat} (hc : Scalar c) (h : 0x20 ≤ c) : ∀ b ∈ utf8 c, 0x20 ≤ b.toNat := by
  unfold Scalar at hc
  unfold utf8
  intro b hb
  split at hb
  · simp only [List.mem_cons, List.not_mem_nil, or_false] at hb; subst hb; rw [ofNat_toNat' (by omega)]; omega
  · split at hb
    · simp only [List.mem_cons, List.not_mem_nil, or_false] at hb
      rcases hb with rfl | rfl <;> rw [ofNat_toNat' (by omega)] <;> omega
    · split at hb
      · simp only [List.mem_cons, List.not_mem_nil, or_false] at hb
        rcases hb with rfl | rfl | rfl <;> rw [ofNat_toNat' (by omega)] <;> omega
      · simp only [List.mem_cons, List.not_mem_nil, or_false] at hb
        rcases hb with rfl | rfl | rfl | rfl <;> rw [ofNat_toNat' (by omega)] <;> omega

theorem hex_printable {n : Nat} (h : n < 16) : 0x20 ≤ (hex n).toNat := by rw [hex_toNat h]; split <;> omega

theorem hex4_printable (c : Nat) : ∀ b ∈ (92 :: 117 :: hex4 c : Bytes), 0x20 ≤ b.toNat := by
  intro b hb
  simp only [hex4, List.mem_cons, List.not_mem_nil, or_false] at hb
  rcases hb with rfl | rfl | rfl | rfl | rfl | rfl
  · decide
  · decide
  all_goals exact hex_printable (by omega)

theorem esc_printable {c : Nat} (hc : Scalar c) : ∀ b ∈ esc c, 0x20 ≤ b.toNat := by
  unfold esc
  split
  · decide
  · split
    · decide
    · split
      · decide
      · split
        · decide
        · split
          · decide
          · split
            · exact hex4_printable c
            · exact utf8_printable hc (by omega)

theorem tok_printable (t : Tok) : ∀ b ∈ t.bytes, 0x20 ≤ b.toNat := by
  cases t with
  | str s =>
    intro b hb
    simp only [Tok.bytes, quoted, List.mem_cons, List.mem_append, List.mem_flatMap, List.not_mem_nil, or_false] at hb
    rcases hb with rfl | ⟨o, ho, hb⟩ | rfl
    · decide
    · cases o with
      | none => exact hex4_printable _ b hb
      | some c => exact esc_printable (runes_scalar s c ho) b hb
    · decide
  | num i =>
    intro b hb
    simp only [Tok.bytes, Dec.formatInt] at hb
    split at hb
    · simp only [List.mem_cons] at hb
      rcases hb with rfl | hb
      · decide
      · have := Dec.digits_all _ b hb; omega
    · have := Dec.digits_all _ b hb; omega
  | _ => decide

/-- What is written is one line: it contains no control characters. -/
theorem print_printable (j : J) : ∀ b ∈ print j, 0x20 ≤ b.toNat := by
  intro b hb
  simp only [print, List.mem_flatMap] at hb
  obtain ⟨t, -, ht⟩ := hb
  exact tok_printable t b ht

theorem print_ne_nil (j : J) : print j ≠ [] := by
  obtain ⟨t, r, h, -⟩ := toks_head j
  intro hc
  rw [print, h, List.flatMap_cons] at hc
  exact bytes_ne_nil t (List.append_eq_nil_iff.mp hc).1
