import Verif.Basic
/-
Decimal text: `strconv.FormatInt`, `strconv.ParseInt`, `strconv.FormatBool`,
`strconv.ParseBool` and `fmt "%d"` of Go's standard library as used by the collector.
Go strings are byte lists.
-/
namespace Kindling
abbrev Bytes := List UInt8

/-- The bytes of an ASCII string literal. -/
def bs (s : String) : Bytes := s.toList.map (fun c => UInt8.ofNat c.toNat)

namespace Dec

/-- The byte of a decimal digit (`d < 10`). -/
def digit (d : Nat) : UInt8 := UInt8.ofNat (48 + d)

/-- Decimal digits of a natural number, most significant first (`strconv.FormatUint`, base 10). -/
def digits (n : Nat) : Bytes :=
  if n < 10 then [digit n] else digits (n / 10) ++ [digit (n % 10)]
termination_by n

/-- `strconv.FormatInt(i, 10)`. -/
def formatInt (i : Int) : Bytes :=
  if i < 0 then 45 :: digits i.natAbs else digits i.natAbs

/-- The digit loop of `strconv.ParseUint` for base 10: `none` on a non-digit. -/
def foldDigits : Nat → Bytes → Option Nat
  | acc, [] => some acc
  | acc, b :: r => if 48 ≤ b.toNat ∧ b.toNat ≤ 57 then foldDigits (acc * 10 + (b.toNat - 48)) r else none

/-- Unsigned decimal text; empty text is a syntax error. -/
def parseNat (s : Bytes) : Option Nat := if s = [] then none else foldDigits 0 s

/-- The number the leading digits of a text stand for. -/
def leading (s : Bytes) : Nat := (s.takeWhile (fun c => decide (48 ≤ c.toNat ∧ c.toNat ≤ 57))).foldl (fun n c => n * 10 + (c.toNat - 48)) 0

/-- `strconv.ParseInt(s, 10, bits)` as a pair (value, ok): syntax error gives (0, false),
out of range gives (the nearest limit, false); the digits are read before a bad byte is found, so a number that is out of range even
for `ParseUint` is out of range whatever follows it. -/
def parseInt (bits : Nat) (s : Bytes) : Int × Bool :=
  let (neg, rest) : Bool × Bytes := match s with
    | [] => (false, [])
    | b :: r => if b = 45 then (true, r) else if b = 43 then (false, r) else (false, b :: r)
  match parseNat rest with
  | none => if 2 ^ bits ≤ leading rest then (if neg then -(2 ^ (bits - 1) : Nat) else (2 ^ (bits - 1) - 1 : Nat), false) else (0, false)
  | some n =>
    if neg then (if n ≤ 2 ^ (bits - 1) then (-(n : Int), true) else (-(2 ^ (bits - 1) : Nat), false))
    else (if n < 2 ^ (bits - 1) then ((n : Int), true) else ((2 ^ (bits - 1) - 1 : Nat), false))

/-- `strconv.FormatBool`. -/
def formatBool (b : Bool) : Bytes := if b then bs "true" else bs "false"

theorem digit_toNat {d : Nat} (h : d < 10) : (digit d).toNat = 48 + d := by
  simp [digit, UInt8.toNat_ofNat']; omega

theorem foldDigits_append (acc : Nat) (a b : Bytes) :
    foldDigits acc (a ++ b) = (foldDigits acc a).bind (fun n => foldDigits n b) := by
  induction a generalizing acc with
  | nil => simp [foldDigits]
  | cons x r ih => simp only [List.cons_append, foldDigits]; split <;> simp [ih]

theorem foldDigits_digit {acc d : Nat} (h : d < 10) : foldDigits acc [digit d] = some (acc * 10 + d) := by
  simp [foldDigits, digit_toNat h]; omega

theorem foldDigits_digits (n : Nat) : foldDigits 0 (digits n) = some n := by
  induction n using Nat.strongRecOn with
  | _ n ih =>
    rw [digits]
    split
    · rename_i h; simpa using foldDigits_digit (acc := 0) h
    · rename_i h
      rw [foldDigits_append, ih (n / 10) (by omega)]
      simp only [Option.bind_some]
      rw [foldDigits_digit (by omega)]
      congr 1; omega

theorem digits_ne_nil (n : Nat) : digits n ≠ [] := by
  rw [digits]; split <;> simp

theorem digits_all (n : Nat) : ∀ b ∈ digits n, 48 ≤ b.toNat ∧ b.toNat ≤ 57 := by
  induction n using Nat.strongRecOn with
  | _ n ih =>
    rw [digits]
    split
    · rename_i h; intro b hb; simp only [List.mem_singleton] at hb; subst hb; rw [digit_toNat h]; omega
    · rename_i h
      intro b hb
      rw [List.mem_append] at hb
      rcases hb with hb | hb
      · exact ih (n / 10) (by omega) b hb
      · simp only [List.mem_singleton] at hb; subst hb; rw [digit_toNat (by omega)]; omega

theorem parseNat_digits (n : Nat) : parseNat (digits n) = some n := by
  simp [parseNat, digits_ne_nil, foldDigits_digits]

theorem digits_inj {m n : Nat} (h : digits m = digits n) : m = n := by
  have := foldDigits_digits m
  rw [h, foldDigits_digits] at this; exact (Option.some.inj this).symm

/-- Round trip through text for every integer of the given width. -/
theorem parseInt_formatInt (bits : Nat) (i : Int)
    (hlo : -(2 ^ (bits - 1) : Nat) ≤ i) (hhi : i < (2 ^ (bits - 1) : Nat)) :
    parseInt bits (formatInt i) = (i, true) := by
  unfold formatInt
  split
  · rename_i hneg
    have : i.natAbs ≤ 2 ^ (bits - 1) := by omega
    simp only [parseInt, parseNat_digits, ↓reduceIte, this]
    congr 1; omega
  · rename_i hneg
    have hlt : i.natAbs < 2 ^ (bits - 1) := by omega
    have hne := digits_ne_nil i.natAbs
    have hall := digits_all i.natAbs
    have hp := parseNat_digits i.natAbs
    generalize hd : digits i.natAbs = ds at hne hall hp
    cases ds with
    | nil => exact absurd rfl hne
    | cons b r =>
      have hb := hall b (by simp)
      have h1 : b ≠ 45 := by rintro rfl; simp at hb
      have h2 : b ≠ 43 := by rintro rfl; simp at hb
      simp only [parseInt, h1, h2, hp, ↓reduceIte, hlt]
      simp; omega

/-- Unsigned text is accepted exactly if it is the decimal text of a number, possibly after zeros. -/
theorem parseNat_iff (s : Bytes) (n : Nat) : parseNat s = some n ↔ ∃ k, s = List.replicate k 48 ++ digits n := by
  have zeros : ∀ (k : Nat) (r : Bytes), foldDigits 0 (List.replicate k 48 ++ r) = foldDigits 0 r := by
    intro k r
    induction k with
    | zero => rfl
    | succ k ih => simpa [List.replicate_succ, foldDigits] using ih
  have fwd : ∀ (s : Bytes), s ≠ [] → ∀ n, foldDigits 0 s = some n → ∃ k, s = List.replicate k 48 ++ digits n := by
    intro s
    induction s using snoc_ind with
    | nil => intro h; exact absurd rfl h
    | snoc l b ih =>
      intro _ n h
      rw [foldDigits_append] at h
      cases hl : foldDigits 0 l with
      | none => rw [hl] at h; simp at h
      | some m =>
        rw [hl] at h
        simp only [Option.bind_some, foldDigits] at h
        split at h
        · rename_i hb
          simp only [Option.some.injEq] at h
          have hd : b = digit (b.toNat - 48) := by
            apply UInt8.toNat_inj.1
            rw [digit_toNat (by omega)]; omega
          by_cases hn : l = []
          · subst hn
            simp only [foldDigits, Option.some.injEq] at hl
            refine ⟨0, ?_⟩
            rw [digits, if_pos (by omega)]
            simp only [List.nil_append, List.replicate_zero]
            rw [show n = b.toNat - 48 by omega, ← hd]
          · obtain ⟨k, hk⟩ := ih hn m hl
            by_cases hm : m = 0
            · subst hm
              refine ⟨k + 1, ?_⟩
              have e0 : digits 0 = [48] := by rw [digits]; rfl
              have en : digits n = [b] := by
                rw [digits, if_pos (by omega), show n = b.toNat - 48 by omega, ← hd]
              rw [hk, e0, en, List.replicate_succ']
            · refine ⟨k, ?_⟩
              rw [hk]
              conv => rhs; rw [digits]
              rw [if_neg (by omega), show n / 10 = m by omega, show n % 10 = b.toNat - 48 by omega, ← hd]
              simp
        · simp at h
  constructor
  · intro h
    unfold parseNat at h
    split at h
    · simp at h
    · rename_i hne; exact fwd s hne n h
  · rintro ⟨k, rfl⟩
    have hne : List.replicate k 48 ++ digits n ≠ [] := by simp [digits_ne_nil]
    rw [parseNat, if_neg hne, zeros, foldDigits_digits]

/-- The number a signed text stands for: optional sign, then decimal text. -/
def IsText (s : Bytes) (neg : Bool) (n : Nat) : Prop :=
  ∃ k, s = (if neg then [45] else []) ++ List.replicate k 48 ++ digits n ∨
    (neg = false ∧ s = 43 :: (List.replicate k 48 ++ digits n))

/-- `ParseInt` on every text: a number in range is read, one out of range gives the limit of its
side, anything else gives 0 (or a limit, after too many digits); the last two report an error. -/
theorem parseInt_spec (bits : Nat) (s : Bytes) :
    (∀ neg n, IsText s neg n → parseInt bits s =
      if neg then (if n ≤ 2 ^ (bits - 1) then (-(n : Int), true) else (-((2 ^ (bits - 1) : Nat) : Int), false))
      else (if n < 2 ^ (bits - 1) then ((n : Int), true) else (((2 ^ (bits - 1) : Nat) : Int) - 1, false))) ∧
    ((¬ ∃ neg n, IsText s neg n) → (parseInt bits s).2 = false ∧
      (leading s < 2 ^ bits → leading s.tail < 2 ^ bits → parseInt bits s = (0, false)) ∧
      (∀ b r, s = b :: r → 48 ≤ b.toNat ∧ b.toNat ≤ 57 → 2 ^ bits ≤ leading s → parseInt bits s = (((2 ^ (bits - 1) : Nat) : Int) - 1, false)) ∧
      (∀ r, s = 45 :: r → 2 ^ bits ≤ leading r → parseInt bits s = (-((2 ^ (bits - 1) : Nat) : Int), false)) ∧
      (∀ r, s = 43 :: r → 2 ^ bits ≤ leading r → parseInt bits s = (((2 ^ (bits - 1) : Nat) : Int) - 1, false))) := by
  have hpos : 0 < 2 ^ (bits - 1) := Nat.pow_pos (by omega)
  have lead : ∀ (k n : Nat), ∃ b r, List.replicate k 48 ++ digits n = b :: r ∧ b ≠ 45 ∧ b ≠ 43 := by
    intro k n
    cases k with
    | succ k => exact ⟨48, _, rfl, by decide, by decide⟩
    | zero =>
      have hall := digits_all n
      cases hd : digits n with
      | nil => exact absurd hd (digits_ne_nil n)
      | cons b r =>
        have hb := hall b (by simp [hd])
        refine ⟨b, r, by simp, ?_, ?_⟩
        · rintro rfl; simp at hb
        · rintro rfl; simp at hb
  constructor
  · rintro neg n ⟨k, h | ⟨rfl, h⟩⟩
    · cases neg with
      | true =>
        simp only [↓reduceIte, List.cons_append, List.nil_append] at h
        subst h
        simp only [parseInt, ↓reduceIte, (parseNat_iff _ n).2 ⟨k, rfl⟩]
      | false =>
        simp only [Bool.false_eq_true, ↓reduceIte, List.nil_append] at h
        obtain ⟨b, r, hb, h1, h2⟩ := lead k n
        have hp := (parseNat_iff _ n).2 ⟨k, rfl⟩
        rw [hb] at h hp
        subst h
        simp only [parseInt, h1, h2, ↓reduceIte, hp, Bool.false_eq_true]
        split
        · rfl
        · congr 1; omega
    · subst h
      simp only [parseInt, Bool.false_eq_true, ↓reduceIte]
      rw [if_neg (by decide)]
      simp only [(parseNat_iff _ n).2 ⟨k, rfl⟩, Bool.false_eq_true, ↓reduceIte]
      split
      · rfl
      · congr 1; omega
  · intro hno
    have none_of : ∀ (r : Bytes), (∀ n k, r ≠ List.replicate k 48 ++ digits n) → parseNat r = none := by
      intro r hr
      cases hp : parseNat r with
      | none => rfl
      | some n =>
        obtain ⟨k, hk⟩ := (parseNat_iff r n).1 hp
        exact absurd hk (hr n k)
    cases s with
    | nil => simp [parseInt, parseNat, leading, Nat.pow_pos]
    | cons b r =>
      by_cases h1 : b = 45
      · subst h1
        have : parseNat r = none := none_of r (fun n k hk => hno ⟨true, n, k, Or.inl (by simp [hk])⟩)
        simp only [parseInt, ↓reduceIte, this, List.tail_cons]
        refine ⟨by split <;> rfl, fun _ h => by rw [if_neg (by omega)], fun b' r' e hb => ?_, fun r' e h => ?_, fun r' e h => by cases e⟩
        · cases e; simp at hb
        · cases e; rw [if_pos h]
      · by_cases h2 : b = 43
        · subst h2
          have : parseNat r = none := none_of r (fun n k hk => hno ⟨false, n, k, Or.inr ⟨rfl, by rw [hk]⟩⟩)
          simp only [parseInt, if_neg (show ¬ (43 : UInt8) = 45 by decide), ↓reduceIte, this, List.tail_cons, Bool.false_eq_true]
          refine ⟨by split <;> rfl, fun _ h => by rw [if_neg (by omega)], fun b' r' e hb => ?_, (fun r' e h => by cases e), fun r' e h => ?_⟩
          · cases e; simp at hb
          · cases e; rw [if_pos h]; congr 1; omega
        · have : parseNat (b :: r) = none :=
            none_of _ (fun n k hk => hno ⟨false, n, k, Or.inl (by simp [hk])⟩)
          simp only [parseInt, h1, h2, ↓reduceIte, this, Bool.false_eq_true]
          refine ⟨by split <;> rfl, fun h _ => by rw [if_neg (by omega)], fun b' r' e hb h => ?_, fun r' e => ?_, fun r' e => ?_⟩
          · rw [if_pos h]; congr 1; omega
          · exact absurd (List.cons.inj e).1 h1
          · exact absurd (List.cons.inj e).1 h2

example : IsText (bs "+007") false 7 ∧ IsText (bs "-12") true 12 ∧ parseInt 64 (bs "12:") = (0, false) ∧
    parseInt 64 (bs "-99999999999999999999:") = (-9223372036854775808, false) := by
  refine ⟨⟨2, Or.inr ⟨rfl, by decide +kernel⟩⟩, ⟨0, Or.inl (by decide +kernel)⟩, by decide, by decide +kernel⟩

theorem formatInt_inj {i j : Int} (h : formatInt i = formatInt j) : i = j := by
  unfold formatInt at h
  have key : ∀ (n : Nat) (r : Bytes), (45 : UInt8) :: r ≠ digits n := by
    intro n r he
    have := digits_all n 45 (by rw [← he]; simp)
    simp at this
  split at h <;> split at h
  · simp only [List.cons.injEq, true_and] at h
    have := digits_inj h; omega
  · exact absurd h (key _ _)
  · exact absurd h.symm (key _ _)
  · have := digits_inj h; omega

theorem formatBool_inj {a b : Bool} (h : formatBool a = formatBool b) : a = b := by
  revert h; cases a <;> cases b <;> decide

theorem leading_fold (s r : Bytes) (hr : ∀ b t, r = b :: t → ¬ (48 ≤ b.toNat ∧ b.toNat ≤ 57)) : ∀ acc n, foldDigits acc s = some n →
    ((s ++ r).takeWhile (fun c => decide (48 ≤ c.toNat ∧ c.toNat ≤ 57))).foldl (fun n c => n * 10 + (c.toNat - 48)) acc = n := by
  induction s with
  | nil =>
    intro acc n h
    simp only [foldDigits, Option.some.injEq] at h
    cases r with
    | nil => simpa using h
    | cons b t => rw [List.nil_append, List.takeWhile_cons_of_neg (by simpa using hr b t rfl)]; exact h
  | cons b t ih =>
    intro acc n h
    simp only [foldDigits] at h
    split at h
    · rename_i hb
      rw [List.cons_append, List.takeWhile_cons_of_pos (by simpa using hb), List.foldl_cons]
      exact ih _ _ h
    · cases h

/-- The leading digits of a number written in decimal, followed by nothing or by something that is no digit, stand for it. -/
theorem leading_digits (n : Nat) (r : Bytes) (hr : ∀ b t, r = b :: t → ¬ (48 ≤ b.toNat ∧ b.toNat ≤ 57)) : leading (digits n ++ r) = n :=
  leading_fold (digits n) r hr 0 n (foldDigits_digits n)

example : leading (digits 907 ++ bs "x1") = 907 := leading_digits 907 _ (by rintro b t h; cases h; decide)

end Dec

end Kindling
