import Verif.Dec
/-
Names of Prometheus labels (component/consumer/exporter/prometheusexporter/sanitize.go).

Simplified: strings are lists of code points (`strings.Map` decodes them; invalid bytes decode to U+FFFD, which is
replaced).  `unicode.IsLetter` and `unicode.IsDigit` are arbitrary predicates that are right below 256.
-/
namespace Kindling.Export.Sanitize

/-- The tables of package `unicode`. -/
structure Tables where
  letter : Nat → Bool
  digit : Nat → Bool
  /-- the digits below 256 are '0' to '9' -/
  digit_low : ∀ r, r < 256 → (digit r = true ↔ 48 ≤ r ∧ r ≤ 57)
  /-- '_' is no letter, and no letter is a digit -/
  letter_low : letter 95 = false
  disjoint : ∀ r, letter r = true → digit r = false

/-- `sanitizeRune` (50-56). -/
def sanitizeRune (t : Tables) (r : Nat) : Nat := if t.letter r || t.digit r then r else 95

/-- First byte of the UTF-8 encoding of a code point. -/
def firstByte (r : Nat) : Nat :=
  if r < 0x80 then r else if r < 0x800 then 0xC0 + r / 64 else if r < 0x10000 then 0xE0 + r / 4096 else 0xF0 + r / 262144

/-- "key" and "key_". -/
def key : List Nat := [107, 101, 121]

/-- Lines 34-36: `unicode.IsDigit(rune(s[0]))` looks at the first byte. -/
def addKey_ (t : Tables) (s : List Nat) : List Nat :=
  match s with
  | [] => []
  | c :: r => if t.digit (firstByte c) then key ++ 95 :: c :: r else c :: r

/-- Lines 38-40. -/
def addKey (skip : Bool) (s : List Nat) : List Nat :=
  match s with
  | [] => []
  | c :: r => if !skip && c == 95 then key ++ c :: r else c :: r

/-- Lines 42-45: `s[1]` is read if `s[0]` is an underscore. -/
def addKey2 (s : List Nat) : Res (List Nat) :=
  match s with
  | [] => .panic
  | [c] => if c = 95 then .panic else .ok [c]
  | c :: d :: r => .ok (if c = 95 ∧ d = 95 then key ++ c :: d :: r else c :: d :: r)

/-- `sanitize` (25-47). -/
def sanitize (t : Tables) (s : List Nat) (skip : Bool) : Res (List Nat) :=
  match s with
  | [] => .ok []
  | c :: r => addKey2 (addKey skip (addKey_ t ((c :: r).map (sanitizeRune t))))

/-! ### Spec -/

/-- Letters, digits and underscores. -/
def allowed (t : Tables) (r : Nat) : Prop := t.letter r = true ∨ t.digit r = true ∨ r = 95

theorem sanitizeRune_allowed (t : Tables) (r : Nat) : allowed t (sanitizeRune t r) := by
  unfold sanitizeRune allowed
  cases h1 : t.letter r <;> cases h2 : t.digit r <;> simp [h1, h2]

theorem firstByte_eq (r : Nat) : (r < 0x80 → firstByte r = r) ∧ (0x80 ≤ r → r < 0x110000 → 0xC2 ≤ firstByte r ∧ firstByte r < 256) := by
  unfold firstByte
  constructor
  · intro h; simp [h]
  · intro h h2
    split
    · omega
    · split
      · omega
      · split <;> omega

theorem key_ok (t : Tables) (hk : ∀ c ∈ key, t.letter c = true) : ∀ c ∈ key, allowed t c := fun c h => Or.inl (hk c h)

/-- C52, without `skipSanitizeLabel`.  For every non-empty name the result exists, consists of letters, digits and
underscores, and does not start with an ASCII digit or an underscore. -/
theorem sanitized_name_partial (t : Tables) (hk : ∀ c ∈ key, t.letter c = true) (s : List Nat) (hs : s ≠ []) (hu : ∀ c ∈ s, c < 0x110000) :
    ∃ c r, sanitize t s false = .ok (c :: r) ∧ (∀ x ∈ c :: r, allowed t x) ∧ ¬ (48 ≤ c ∧ c ≤ 57) ∧ c ≠ 95 := by
  cases s with
  | nil => exact absurd rfl hs
  | cons a q =>
    unfold sanitize
    simp only [List.map_cons]
    have hall : ∀ x ∈ sanitizeRune t a :: q.map (sanitizeRune t), allowed t x := by
      intro x hx
      rcases List.mem_cons.1 hx with rfl | hx
      · exact sanitizeRune_allowed _ _
      · obtain ⟨y, _, rfl⟩ := List.mem_map.1 hx; exact sanitizeRune_allowed _ _
    have hlt : sanitizeRune t a < 0x110000 := by
      unfold sanitizeRune; split
      · exact hu a (by simp)
      · omega
    generalize sanitizeRune t a = c at *
    generalize q.map (sanitizeRune t) = r at *
    have h107 : ¬ (107 : Nat) = 95 := by omega
    unfold addKey_
    simp only
    by_cases hd : t.digit (firstByte c) = true
    · rw [if_pos hd]
      simp only [key, List.cons_append, List.nil_append]
      refine ⟨107, _, by simp [addKey, addKey2]; rfl, ?_, by omega, by omega⟩
      intro x hx
      simp only [List.mem_cons] at hx
      rcases hx with rfl | rfl | rfl | rfl | hx
      · exact Or.inl (hk _ (by simp [key]))
      · exact Or.inl (hk _ (by simp [key]))
      · exact Or.inl (hk _ (by simp [key]))
      · exact Or.inr (Or.inr rfl)
      · exact hall x (by simpa using hx)
    · rw [if_neg hd]
      by_cases h95 : c = 95
      · subst h95
        simp only [addKey, Bool.not_false, Bool.true_and, beq_self_eq_true, if_true, key, List.cons_append, List.nil_append]
        refine ⟨107, _, by simp [addKey2]; rfl, ?_, by omega, by omega⟩
        intro x hx
        simp only [List.mem_cons] at hx
        rcases hx with rfl | rfl | rfl | hx
        · exact Or.inl (hk _ (by simp [key]))
        · exact Or.inl (hk _ (by simp [key]))
        · exact Or.inl (hk _ (by simp [key]))
        · exact hall x (by simpa using hx)
      · have ha : addKey false (c :: r) = c :: r := by simp [addKey, h95]
        rw [ha]
        refine ⟨c, r, ?_, hall, ?_, h95⟩
        · cases r with
          | nil => simp [addKey2, h95]
          | cons d r => simp [addKey2, h95]
        · intro hc
          apply hd
          rw [(firstByte_eq c).1 (by omega)]
          exact (t.digit_low c (by omega)).2 hc

/-- Finding (C52 fails with `skipSanitizeLabel`): every name of one character that is no letter or digit, such as "_"
or "-", panics; no other does. -/
theorem sanitize_panics_iff (t : Tables) (s : List Nat) (skip : Bool) :
    sanitize t s skip = .panic ↔ skip = true ∧ ∃ c, s = [c] ∧ (t.letter c = false ∧ t.digit c = false) := by
  have hd95 : t.digit 95 = false := by
    cases h : t.digit 95 with
    | false => rfl
    | true => have := (t.digit_low 95 (by omega)).1 h; omega
  have hk : (key : List Nat) = [107, 101, 121] := rfl
  have hr95 : ∀ c, sanitizeRune t c = 95 ↔ t.letter c = false ∧ t.digit c = false := by
    intro c
    unfold sanitizeRune
    cases h1 : t.letter c <;> cases h2 : t.digit c <;> simp
    · rintro rfl; rw [hd95] at h2; cases h2
    · rintro rfl; rw [t.letter_low] at h1; cases h1
    · rintro rfl; rw [t.letter_low] at h1; cases h1
  cases s with
  | nil => simp [sanitize]
  | cons a q =>
    unfold sanitize
    simp only [List.map_cons]
    unfold addKey_
    simp only
    by_cases hd : t.digit (firstByte (sanitizeRune t a)) = true
    · rw [if_pos hd]
      simp only [hk, List.cons_append, List.nil_append, addKey, addKey2]
      have hne : ¬ sanitizeRune t a = 95 := by
        intro h
        rw [h] at hd
        rw [(firstByte_eq 95).1 (by omega)] at hd
        rw [hd95] at hd
        cases hd
      constructor
      · intro h; simp at h
      · rintro ⟨_, c, hc, h1⟩
        simp only [List.cons.injEq] at hc
        obtain ⟨rfl, _⟩ := hc
        exact absurd ((hr95 a).2 h1) hne
    · rw [if_neg hd]
      by_cases h95 : sanitizeRune t a = 95
      · cases skip with
        | false =>
          simp [addKey, h95, hk, addKey2]
        | true =>
          cases q with
          | nil =>
            simp [addKey, h95, addKey2]
            exact (hr95 a).1 h95
          | cons b q => simp [addKey, addKey2]
      · have ha : ∀ r, addKey skip (sanitizeRune t a :: r) = sanitizeRune t a :: r := by intro r; simp [addKey, h95]
        rw [ha]
        constructor
        · intro h
          cases q with
          | nil => simp [addKey2, h95] at h
          | cons b q => simp [addKey2] at h
        · rintro ⟨_, c, hc, h1⟩
          simp only [List.cons.injEq] at hc
          obtain ⟨rfl, _⟩ := hc
          exact absurd ((hr95 a).2 h1) h95

/-- Finding: the result keeps letters and digits outside ASCII, which Prometheus does not allow in label names; a name
that starts with such a digit keeps it in front. -/
theorem foreign_letters_kept (t : Tables) (c : Nat) (skip : Bool) (hc : 0x80 ≤ c) (hu : c < 0x110000)
    (h : t.letter c = true ∨ t.digit c = true) (r : List Nat) (hr : ∀ x ∈ r, t.letter x = true ∨ t.digit x = true) :
    sanitize t (c :: r) skip = .ok (c :: r) := by
  have hid : ∀ x, t.letter x = true ∨ t.digit x = true → sanitizeRune t x = x := by
    intro x hx; unfold sanitizeRune; simp [hx]
  have hm : r.map (sanitizeRune t) = r := by
    conv => rhs; rw [← List.map_id r]
    apply List.map_congr_left
    intro x hx; exact hid x (hr x hx)
  unfold sanitize
  simp only [List.map_cons]
  rw [hid c h, hm]
  have hfb := (firstByte_eq c).2 hc hu
  have hnd : t.digit (firstByte c) = false := by
    cases hb : t.digit (firstByte c) with
    | false => rfl
    | true => have := (t.digit_low _ hfb.2).1 hb; omega
  have h95 : c ≠ 95 := by omega
  simp only [addKey_, hnd]
  simp only [Bool.false_eq_true, if_false]
  have ha : addKey skip (c :: r) = c :: r := by simp [addKey, h95]
  rw [ha]
  cases r with
  | nil => simp [addKey2, h95]
  | cons d r => simp [addKey2, h95]

/-- ASCII tables meet the assumptions. -/
def ascii : Tables :=
  { letter := fun r => decide ((65 ≤ r ∧ r ≤ 90) ∨ (97 ≤ r ∧ r ≤ 122))
    digit := fun r => decide (48 ≤ r ∧ r ≤ 57)
    digit_low := by intro r _; simp
    letter_low := by decide
    disjoint := by intro r h; simp only [decide_eq_true_eq] at h; simp only [decide_eq_false_iff_not]; omega }

example : sanitize ascii [49, 45, 97] false = .ok [107, 101, 121, 95, 49, 95, 97] := by decide
example : ∀ c ∈ key, ascii.letter c = true := by decide

/-- C52.  The whole result: every other character becomes an underscore, then a name that starts with an ASCII digit gets
"key_" in front, one that starts with an underscore "key"; with `skipSanitizeLabel` only one that starts with two. -/
theorem sanitize_exact (t : Tables) (s : List Nat) (hu : ∀ c ∈ s, c < 0x110000) (skip : Bool) (c : Nat) (r : List Nat)
    (hs : s.map (fun x => if t.letter x = true ∨ t.digit x = true then x else 95) = c :: r) :
    (48 ≤ c ∧ c ≤ 57 → sanitize t s skip = .ok ([107, 101, 121, 95] ++ c :: r)) ∧
    (c = 95 → (skip = false ∨ r.head? = some 95) → sanitize t s skip = .ok ([107, 101, 121] ++ c :: r)) ∧
    (c = 95 → skip = true → r ≠ [] → r.head? ≠ some 95 → sanitize t s skip = .ok (c :: r)) ∧
    (¬ (48 ≤ c ∧ c ≤ 57) → c ≠ 95 → sanitize t s skip = .ok (c :: r)) := by
  have hf : (fun x => if t.letter x = true ∨ t.digit x = true then x else 95) = sanitizeRune t := by
    funext x; unfold sanitizeRune; simp only [Bool.or_eq_true]
  rw [hf] at hs
  cases s with
  | nil => cases hs
  | cons a q =>
    have hlt : c < 0x110000 := by
      simp only [List.map_cons, List.cons.injEq] at hs
      rw [← hs.1]; unfold sanitizeRune; split
      · exact hu a (by simp)
      · omega
    have hd : t.digit (firstByte c) = true ↔ 48 ≤ c ∧ c ≤ 57 := by
      by_cases h : c < 0x80
      · rw [(firstByte_eq c).1 h]; exact t.digit_low c (by omega)
      · have := (firstByte_eq c).2 (by omega) hlt
        rw [t.digit_low _ this.2]; omega
    unfold sanitize
    simp only [hs]
    unfold addKey_
    refine ⟨fun h => ?_, fun h hk => ?_, fun h hk hr hr2 => ?_, fun h h2 => ?_⟩
    · simp only
      rw [if_pos (hd.2 h)]
      simp [key, addKey, addKey2]
    · have hnd : ¬ t.digit (firstByte c) = true := by rw [hd]; omega
      simp only
      rw [if_neg hnd]
      subst h
      cases skip with
      | false => simp [addKey, key, addKey2]
      | true =>
        rcases hk with hk | hk
        · cases hk
        · cases r with
          | nil => cases hk
          | cons d r =>
            simp only [List.head?_cons, Option.some.injEq] at hk
            subst hk
            simp [addKey, key, addKey2]
    · have hnd : ¬ t.digit (firstByte c) = true := by rw [hd]; omega
      simp only
      rw [if_neg hnd]
      subst h
      subst hk
      cases r with
      | nil => exact absurd rfl hr
      | cons d r =>
        simp only [List.head?_cons, ne_eq, Option.some.injEq] at hr2
        simp [addKey, addKey2, hr2]
    · simp only
      rw [if_neg (by rw [hd]; exact h)]
      have ha : addKey skip (c :: r) = c :: r := by simp [addKey, h2]
      rw [ha]
      cases r with
      | nil => simp [addKey2, h2]
      | cons d r => simp [addKey2, h2]

example : sanitize ascii [95, 95, 97] true = .ok [107, 101, 121, 95, 95, 97] ∧ sanitize ascii [45, 97] true = .ok [95, 97] := by decide

end Kindling.Export.Sanitize
