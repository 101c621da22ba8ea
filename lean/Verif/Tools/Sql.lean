import Verif.Dec
/-
Model of collector/pkg/component/analyzer/network/protocol/mysql/tools/sql_merger.go (property C63).

The regular expressions are written out by hand:
* `(?i)(^\s*)T(.*)` matches iff the text starts with white space and then `T`, letters compared without case;
* `(?i)(?m)(K1|K2..)(\s+(\S*)\s*|\n)`: the leftmost occurrence of a key word that is followed by white space, and
  the longest run of other characters after the longest run of white space (Go's matching is leftmost and greedy).
Letters are ASCII letters; Go also lets two characters outside ASCII stand for `k` and `s`.
-/
namespace Kindling.Sql
open Kindling

/-- `\s` of Go's regexp. -/
def isSp (b : UInt8) : Bool := b = 9 || b = 10 || b = 12 || b = 13 || b = 32

/-- `unicode.ToLower` of an ASCII character. -/
def lower (b : UInt8) : UInt8 := if 65 ≤ b ∧ b ≤ 90 then b + 32 else b

/-- `strings.HasPrefix(strings.ToLower(s), p)`. -/
def startsI (p s : Bytes) : Bool := p.isPrefixOf (s.map lower)

/-- sql_merger.go:105-112 `checkType` (the containment it tests holds of every match). -/
def checkType (ty s : Bytes) : Bool := startsI ty (s.dropWhile isSp)

/-- The second pattern tried at the start of the text, group 3. -/
def keyHere (keys : List Bytes) (s : Bytes) : Option Bytes :=
  keys.findSome? (fun k =>
    if startsI k s then
      match s.drop k.length with
      | b :: r => if isSp b then some (((b :: r).dropWhile isSp).takeWhile (fun c => !isSp c)) else none
      | [] => none
    else none)

/-- The second pattern: leftmost match. -/
def findKey (keys : List Bytes) : Bytes → Option Bytes
  | [] => none
  | b :: r => (keyHere keys (b :: r)).or (findKey keys r)

/-- sql_merger.go:67-83 `getRegexMatchStr`. -/
def tableOf (keys : List Bytes) (s : Bytes) : Bytes :=
  match findKey keys s with
  | none => [42]
  | some t => if t.length = 0 then [42] else t

def alphabetic (b : UInt8) : Bool := (65 ≤ b && b ≤ 90) || (97 ≤ b && b ≤ 122) || b = 95 || b = 45

/-- sql_merger.go:85-87 `isSqlAlphabet`. -/
def isSqlAlphabet (s : Bytes) : Bool := !s.isEmpty && s.all alphabetic

/-- sql_merger.go:89-103 `parseStatement`. -/
def parseOne (ty : Bytes) (keys : List Bytes) (s : Bytes) : Bytes :=
  if !checkType ty s then []
  else
    let v := tableOf keys s
    ty ++ 32 :: (if !isSqlAlphabet v then [42] else v ++ [32, 42])

/-- sql_merger.go:24-39 `NewSqlMerger`. -/
def factory : List (Bytes × List Bytes) :=
  [(bs "select", [bs "from"]), (bs "insert", [bs "into"]), (bs "update", [bs "update"]), (bs "delete", [bs "from"]),
   (bs "drop", [bs "index", bs "table", bs "database"]), (bs "create", [bs "index", bs "table", bs "database"]),
   (bs "alter", [bs "table"]), (bs "set", [bs "set"]), (bs "commit", [bs "commit"])]

def firstResult (s : Bytes) : List (Bytes × List Bytes) → Bytes
  | [] => []
  | p :: r => if checkType p.1 s ∧ (parseOne p.1 p.2 s).length > 0 then parseOne p.1 p.2 s else firstResult s r

/-- sql_merger.go:41-53 `ParseStatement`. -/
def parseStatement (s : Bytes) : Bytes := firstResult s factory

/-! ## Specification -/

/-- `s` starts, after white space, with the word `ty` in any case. -/
def IsType (ty s : Bytes) : Prop := ∃ sp w r, s = sp ++ w ++ r ∧ (∀ b ∈ sp, isSp b = true) ∧ w.map lower = ty

/-- In `s` the key word at the end of `before` is the first one followed by white space. -/
def FirstKey (keys : List Bytes) (before key : Bytes) : Prop :=
  key.map lower ∈ keys ∧ ∀ k ∈ keys, ∀ p q b, isSp b = true → before.map lower ++ key.map lower ≠ p ++ k ++ b :: q

/-! ## Proofs -/

theorem lower_not_space (b : UInt8) : isSp (lower b) = isSp b := by
  have : ∀ n, n < 256 → isSp (lower (UInt8.ofNat n)) = isSp (UInt8.ofNat n) := by decide +kernel
  have := this b.toNat (UInt8.toNat_lt b)
  simpa using this

theorem lower_space {b : UInt8} (h : isSp b = true) : lower b = b := by
  have : ∀ n, n < 256 → isSp (UInt8.ofNat n) = true → lower (UInt8.ofNat n) = UInt8.ofNat n := by decide +kernel
  have := this b.toNat (UInt8.toNat_lt b)
  simp only [UInt8.ofNat_toNat] at this
  exact this h

theorem startsI_iff (p s : Bytes) : startsI p s = true ↔ ∃ r, s.map lower = p ++ r := by
  simp only [startsI, List.isPrefixOf_iff_prefix]
  constructor
  · rintro ⟨r, h⟩; exact ⟨r, h.symm⟩
  · rintro ⟨r, h⟩; exact ⟨r, h.symm⟩

theorem dropWhile_spaces {sp t : Bytes} (h : ∀ b ∈ sp, isSp b = true) : (sp ++ t).dropWhile isSp = t.dropWhile isSp := by
  induction sp with
  | nil => rfl
  | cons a r ih =>
    rw [List.cons_append, List.dropWhile_cons_of_pos (h a (by simp)), ih (fun b hb => h b (by simp [hb]))]

theorem types_first : ∀ p ∈ factory, ∃ b r, p.1 = b :: r ∧ isSp b = false := by
  have : ∀ p ∈ factory, p.1 ≠ [] ∧ (p.1.headD 0 |> isSp) = false := by decide +kernel
  intro p hp
  obtain ⟨h1, h2⟩ := this p hp
  cases h : p.1 with
  | nil => exact absurd h h1
  | cons b r => rw [h] at h2; exact ⟨b, r, rfl, h2⟩

/-- `checkType` decides `IsType`, for the types in use. -/
theorem checkType_iff (p : Bytes × List Bytes) (hp : p ∈ factory) (s : Bytes) : checkType p.1 s = true ↔ IsType p.1 s := by
  obtain ⟨b, r, hb, hsp⟩ := types_first p hp
  simp only [checkType, startsI_iff]
  constructor
  · rintro ⟨t, ht⟩
    refine ⟨s.takeWhile isSp, (s.dropWhile isSp).take p.1.length, (s.dropWhile isSp).drop p.1.length, ?_, ?_, ?_⟩
    · rw [List.append_assoc, List.take_append_drop, List.takeWhile_append_dropWhile]
    · clear ht
      induction s with
      | nil => simp
      | cons a q ih =>
        intro c hc
        by_cases ha : isSp a = true
        · rw [List.takeWhile_cons_of_pos ha] at hc
          rcases List.mem_cons.1 hc with rfl | hc
          · exact ha
          · exact ih c hc
        · rw [List.takeWhile_cons_of_neg ha] at hc
          cases hc
    · rw [List.map_take, ht, List.take_left]
  · rintro ⟨sp, w, r', rfl, h1, h2⟩
    refine ⟨r'.map lower, ?_⟩
    rw [List.append_assoc, dropWhile_spaces h1]
    cases w with
    | nil => rw [hb] at h2; simp at h2
    | cons c w' =>
      have hc : ¬ isSp c = true := by
        rw [hb] at h2
        simp only [List.map_cons, List.cons.injEq] at h2
        rw [← lower_not_space, h2.1, hsp]; simp
      rw [List.cons_append, List.dropWhile_cons_of_neg hc, ← List.cons_append, List.map_append, h2]

/-- Different types never match the same text. -/
theorem types_apart : ∀ p ∈ factory, ∀ q ∈ factory, p.1.isPrefixOf q.1 = true → p = q := by decide +kernel

theorem type_unique {p q : Bytes × List Bytes} (hp : p ∈ factory) (hq : q ∈ factory) {s : Bytes} (h1 : checkType p.1 s = true) (h2 : checkType q.1 s = true) :
    p = q := by
  simp only [checkType, startsI, List.isPrefixOf_iff_prefix] at h1 h2
  rcases List.prefix_or_prefix_of_prefix h1 h2 with h | h
  · exact types_apart p hp q hq (List.isPrefixOf_iff_prefix.2 h)
  · exact (types_apart q hq p hp (List.isPrefixOf_iff_prefix.2 h)).symm

theorem parseOne_pos {ty : Bytes} {keys : List Bytes} {s : Bytes} (h : checkType ty s = true) : (parseOne ty keys s).length > 0 := by
  simp [parseOne, h]; omega

theorem firstResult_of (s : Bytes) (l : List (Bytes × List Bytes)) (p : Bytes × List Bytes) (hp : p ∈ l) (hc : checkType p.1 s = true)
    (hu : ∀ q ∈ l, checkType q.1 s = true → q = p) : firstResult s l = parseOne p.1 p.2 s := by
  induction l with
  | nil => cases hp
  | cons q r ih =>
    simp only [firstResult]
    by_cases hq : checkType q.1 s = true
    · have := hu q (by simp) hq
      subst this
      rw [if_pos ⟨hq, parseOne_pos hq⟩]
    · rw [if_neg (fun h => hq h.1)]
      rcases List.mem_cons.1 hp with rfl | hp
      · exact absurd hc hq
      · exact ih hp (fun q hq => hu q (by simp [hq]))

theorem parseStatement_of {p : Bytes × List Bytes} (hp : p ∈ factory) {s : Bytes} (hs : IsType p.1 s) :
    parseStatement s = p.1 ++ 32 :: (if !isSqlAlphabet (tableOf p.2 s) then [42] else tableOf p.2 s ++ [32, 42]) := by
  have hc := (checkType_iff p hp s).2 hs
  rw [parseStatement, firstResult_of s factory p hp hc (fun q hq h => type_unique hq hp h hc)]
  simp [parseOne, hc]

/-- The keys are not empty. -/
theorem keys_nonempty : ∀ p ∈ factory, ∀ k ∈ p.2, k ≠ [] ∧ ∀ b ∈ k, isSp b = false := by decide +kernel

theorem keyHere_some {keys : List Bytes} {s t : Bytes} (h : keyHere keys s = some t) :
    ∃ k ∈ keys, ∃ b r, isSp b = true ∧ s.map lower = k ++ b :: r := by
  simp only [keyHere] at h
  obtain ⟨k, hk, h⟩ := List.exists_of_findSome?_eq_some h
  split at h
  · rename_i hst
    obtain ⟨r, hr⟩ := (startsI_iff _ _).1 hst
    split at h
    · rename_i b q hq
      split at h
      · rename_i hb
        refine ⟨k, hk, b, q.map lower, hb, ?_⟩
        rw [hr]
        congr 1
        have : (s.drop k.length).map lower = r := by rw [List.map_drop, hr, List.drop_left]
        rw [← this, hq, List.map_cons, lower_space hb]
      · cases h
    · cases h
  · cases h

theorem keys_apart : ∀ p ∈ factory, ∀ k ∈ p.2, ∀ k' ∈ p.2, k.isSuffixOf k' = true → k = k' := by decide +kernel

/-- If `l ++ sp :: r` starts with `k` and white space, and `k` has none, then either `k = l` or the white space is in `l`. -/
theorem split_at_space {l r k q : Bytes} {sp b : UInt8} (hsp : isSp sp = true) (hk : ∀ c ∈ k, isSp c = false)
    (h : l ++ sp :: r = k ++ b :: q) : k = l ∨ ∃ q', l = k ++ b :: q' := by
  rcases List.append_eq_append_iff.1 h with ⟨t, h1, h2⟩ | ⟨t, h1, h2⟩
  · cases t with
    | nil => left; simpa using h1
    | cons c t =>
      simp only [List.cons_append, List.cons.injEq] at h2
      have := hk c (by rw [h1]; simp)
      rw [← h2.1, hsp] at this
      cases this
  · cases t with
    | nil => left; simpa using h1.symm
    | cons c t =>
      simp only [List.cons_append, List.cons.injEq] at h2
      right
      exact ⟨t, by rw [h1, h2.1]⟩

theorem append_assoc_cons (u key : Bytes) (sp : UInt8) (rest : Bytes) (hsp : isSp sp = true) :
    (u ++ (key ++ sp :: rest)).map lower = (u.map lower ++ key.map lower) ++ sp :: rest.map lower := by
  simp [lower_space hsp]

/-- No key starts before the first one. -/
theorem findKey_skip (p : Bytes × List Bytes) (hp : p ∈ factory) (before key : Bytes) (hf : FirstKey p.2 before key) (sp : UInt8) (hsp : isSp sp = true)
    (rest : Bytes) : findKey p.2 (before ++ (key ++ sp :: rest)) = findKey p.2 (key ++ sp :: rest) := by
  obtain ⟨hkey, hf⟩ := hf
  induction before with
  | nil => rfl
  | cons a u ih =>
    have hi := ih (by
      intro k hk pp q b hb e
      exact hf k hk (lower a :: pp) q b hb (by simp only [List.map_cons, List.cons_append, e]))
    rw [List.cons_append, findKey, hi]
    cases hh : keyHere p.2 (a :: (u ++ (key ++ sp :: rest))) with
    | none => rfl
    | some t =>
      exfalso
      obtain ⟨k, hk, b, r, hb, e⟩ := keyHere_some hh
      rw [← List.cons_append, append_assoc_cons _ _ _ _ hsp] at e
      rcases split_at_space hsp (keys_nonempty p hp k hk).2 e with e | ⟨q', e⟩
      · have := keys_apart p hp _ hkey k hk (by rw [e, List.isSuffixOf_iff_suffix]; exact ⟨_, rfl⟩)
        rw [this] at e
        have := congrArg List.length e
        simp at this
        omega
      · exact hf k hk [] q' b hb (by rw [e]; simp)

theorem keyHere_key (p : Bytes × List Bytes) (hp : p ∈ factory) (key : Bytes) (hkey : key.map lower ∈ p.2) (sp : UInt8) (hsp : isSp sp = true) (rest : Bytes) :
    keyHere p.2 (key ++ sp :: rest) = some (((sp :: rest).dropWhile isSp).takeWhile (fun c => !isSp c)) := by
  have hkn := keys_nonempty p hp _ hkey
  have hst : startsI (key.map lower) (key ++ sp :: rest) = true := (startsI_iff _ _).2 ⟨(sp :: rest).map lower, by simp⟩
  have hval : ∀ k, startsI k (key ++ sp :: rest) = true → k ∈ p.2 → ∀ t,
      (match (key ++ sp :: rest).drop k.length with
        | b :: r => if isSp b then some (((b :: r).dropWhile isSp).takeWhile (fun c => !isSp c)) else none
        | [] => none) = some t → t = ((sp :: rest).dropWhile isSp).takeWhile (fun c => !isSp c) := by
    intro k hk hkm t ht
    obtain ⟨r, hr⟩ := (startsI_iff _ _).1 hk
    split at ht
    · rename_i b q hq
      split at ht
      · rename_i hb
        have e := append_assoc_cons [] key sp rest hsp
        simp only [List.nil_append, List.map_nil] at e
        have hrq : r = b :: q.map lower := by
          have : ((key ++ sp :: rest).drop k.length).map lower = r := by rw [List.map_drop, hr, List.drop_left]
          rw [← this, hq, List.map_cons, lower_space hb]
        rw [hr, hrq] at e
        rcases split_at_space hsp (keys_nonempty p hp k hkm).2 e.symm with e | ⟨q', e⟩
        · have hl : k.length = key.length := by rw [e]; simp
          rw [hl, List.drop_left] at hq
          cases ht
          rw [← hq]
        · have := hkn.2 b (by rw [e]; simp)
          rw [hb] at this; cases this
      · cases ht
    · cases ht
  cases hk : keyHere p.2 (key ++ sp :: rest) with
  | none =>
    exfalso
    simp only [keyHere, List.findSome?_eq_none_iff] at hk
    have := hk _ hkey
    rw [if_pos hst, List.length_map, List.drop_left] at this
    simp [hsp] at this
  | some t =>
    simp only [keyHere] at hk
    obtain ⟨k, hkm, h⟩ := List.exists_of_findSome?_eq_some hk
    split at h
    · rename_i hs
      rw [hval k hs hkm t h]
    · cases h

theorem takeWhile_word {w t : Bytes} (h : ∀ b ∈ w, isSp b = false) (ht : t = [] ∨ ∃ c r, t = c :: r ∧ isSp c = true) :
    (w ++ t).takeWhile (fun c => !isSp c) = w := by
  induction w with
  | nil =>
    rcases ht with rfl | ⟨c, r, rfl, hc⟩
    · rfl
    · rw [List.nil_append, List.takeWhile_cons_of_neg (by simp [hc])]
  | cons a r ih =>
    rw [List.cons_append, List.takeWhile_cons_of_pos (by simp [h a (by simp)]), ih (fun b hb => h b (by simp [hb]))]

/-- The word behind the first key word. -/
theorem table_of (p : Bytes × List Bytes) (hp : p ∈ factory) (before key : Bytes) (hf : FirstKey p.2 before key) (ws table after : Bytes)
    (hws : ws ≠ []) (hws2 : ∀ b ∈ ws, isSp b = true) (ht : table ≠ []) (ht2 : ∀ b ∈ table, isSp b = false)
    (ha : after = [] ∨ ∃ c r, after = c :: r ∧ isSp c = true) : tableOf p.2 (before ++ (key ++ (ws ++ (table ++ after)))) = table := by
  obtain ⟨sp, ws', rfl⟩ : ∃ x y, ws = x :: y := by cases ws with
    | nil => exact absurd rfl hws
    | cons x y => exact ⟨x, y, rfl⟩
  have hsp := hws2 sp (by simp)
  have hne : key ≠ [] := by
    rintro rfl
    exact (keys_nonempty p hp _ hf.1).1 rfl
  have hkf : findKey p.2 (key ++ (sp :: ws' ++ (table ++ after))) = some table := by
    rw [List.cons_append]
    obtain ⟨x, y, hxy⟩ : ∃ x y, key = x :: y := by cases hk : key with
      | nil => exact absurd hk hne
      | cons x y => exact ⟨x, y, rfl⟩
    have := keyHere_key p hp key hf.1 sp hsp (ws' ++ (table ++ after))
    rw [hxy] at this ⊢
    rw [List.cons_append, findKey]
    rw [List.cons_append] at this
    rw [this, Option.some_or]
    congr 1
    rw [← List.cons_append, dropWhile_spaces hws2]
    obtain ⟨c, r, hcr⟩ : ∃ c r, table = c :: r := by cases hk : table with
      | nil => exact absurd hk ht
      | cons x y => exact ⟨x, y, rfl⟩
    rw [hcr, List.cons_append, List.dropWhile_cons_of_neg (by rw [ht2 c (by simp [hcr])]; simp), ← List.cons_append, ← hcr]
    exact takeWhile_word ht2 ha
  have hs := findKey_skip p hp before key hf sp hsp (ws' ++ (table ++ after))
  rw [← List.cons_append, hkf] at hs
  have : table.length ≠ 0 := by simpa using ht
  simp only [tableOf, hs, this, ↓reduceIte]

/-- C63: a statement of a known type is reported as the type and the word after the first key word of this type
(`from`, `into`, ...), if this word consists of letters, `_` and `-`; as the type and `*` otherwise. -/
theorem statement_table_partial (p : Bytes × List Bytes) (hp : p ∈ factory) (before key ws table after : Bytes)
    (hty : IsType p.1 (before ++ (key ++ (ws ++ (table ++ after))))) (hf : FirstKey p.2 before key)
    (hws : ws ≠ []) (hws2 : ∀ b ∈ ws, isSp b = true) (ht : table ≠ []) (ht2 : ∀ b ∈ table, isSp b = false)
    (ha : after = [] ∨ ∃ c r, after = c :: r ∧ isSp c = true) :
    parseStatement (before ++ (key ++ (ws ++ (table ++ after)))) =
      p.1 ++ 32 :: (if ∀ b ∈ table, alphabetic b = true then table ++ [32, 42] else [42]) := by
  rw [parseStatement_of hp hty, table_of p hp before key hf ws table after hws hws2 ht ht2 ha]
  congr 2
  by_cases h : ∀ b ∈ table, alphabetic b = true
  · rw [if_pos h]
    have : isSqlAlphabet table = true := by
      simp only [isSqlAlphabet, Bool.and_eq_true, List.all_eq_true]
      exact ⟨by simpa using ht, h⟩
    simp [this]
  · rw [if_neg h]
    have : isSqlAlphabet table = false := by
      rw [Bool.eq_false_iff]
      intro e
      simp only [isSqlAlphabet, Bool.and_eq_true, List.all_eq_true] at e
      exact h e.2
    simp [this]

/-- C63: the key is `type *` or `type word *` for every statement, so it never contains a literal of the statement other
than one word of letters; it is empty iff the statement is of no known type. -/
theorem statement_shape (s : Bytes) :
    (∀ p ∈ factory, IsType p.1 s → parseStatement s = p.1 ++ [32, 42] ∨
      ∃ w, w ≠ [] ∧ (∀ b ∈ w, alphabetic b = true) ∧ parseStatement s = p.1 ++ 32 :: (w ++ [32, 42])) ∧
    (parseStatement s = [] ↔ ∀ p ∈ factory, ¬ IsType p.1 s) := by
  have h1 : ∀ p ∈ factory, IsType p.1 s → parseStatement s = p.1 ++ [32, 42] ∨
      ∃ w, w ≠ [] ∧ (∀ b ∈ w, alphabetic b = true) ∧ parseStatement s = p.1 ++ 32 :: (w ++ [32, 42]) := by
    intro p hp hs
    rw [parseStatement_of hp hs]
    cases h : isSqlAlphabet (tableOf p.2 s) with
    | false => left; simp
    | true =>
      right
      simp only [isSqlAlphabet, Bool.and_eq_true, List.all_eq_true] at h
      exact ⟨tableOf p.2 s, by simpa using h.1, h.2, by simp⟩
  refine ⟨h1, ?_, ?_⟩
  · intro e p hp hs
    rcases h1 p hp hs with h | ⟨w, _, _, h⟩ <;> · rw [e] at h; simp at h
  · intro h
    have : ∀ l : List (Bytes × List Bytes), (∀ p ∈ l, p ∈ factory) → firstResult s l = [] := by
      intro l hl
      induction l with
      | nil => rfl
      | cons q r ih =>
        simp only [firstResult]
        rw [if_neg (fun hc => h q (hl q (by simp)) ((checkType_iff q (hl q (by simp)) s).1 hc.1)), ih (fun p hp => hl p (by simp [hp]))]
    exact this factory (fun p hp => hp)

/-- C63 fails for every column whose name ends in the key word: the word after the column is taken for the table, whatever
table the statement names later. -/
theorem column_mistaken_for_key (c x after : Bytes) (hc : ∀ b ∈ c, isSp b = false) (hx : x ≠ []) (hxa : ∀ b ∈ x, alphabetic b = true)
    (ha : after = [] ∨ ∃ d r, after = d :: r ∧ isSp d = true) :
    parseStatement (bs "select " ++ c ++ (bs "from" ++ ([32] ++ (x ++ after)))) = bs "select" ++ 32 :: (x ++ [32, 42]) := by
  have hsp : ∀ b, alphabetic b = true → isSp b = false := by
    intro b hb
    have : ∀ n, n < 256 → alphabetic (UInt8.ofNat n) = true → isSp (UInt8.ofNat n) = false := by decide +kernel
    have := this b.toNat (UInt8.toNat_lt b)
    simp only [UInt8.ofNat_toNat] at this
    exact this hb
  have hno : ∀ p : Bytes, p ++ bs "from" ≠ bs "select" := by
    intro p h
    have hl := congrArg List.length h
    rw [List.length_append] at hl
    have h4 : (bs "from").length = 4 := by decide
    have h6 : (bs "select").length = 6 := by decide
    have := congrArg (List.drop 2) h
    rw [List.drop_append_of_le_length (by omega), List.drop_of_length_le (by omega)] at this
    revert this
    decide
  have hf : FirstKey [bs "from"] (bs "select " ++ c) (bs "from") := by
    refine ⟨by decide, fun k hk p q b hb he => ?_⟩
    rw [List.mem_singleton.1 hk] at he
    have e1 : (bs "select " ++ c).map lower ++ (bs "from").map lower = bs "select" ++ 32 :: (c.map lower ++ bs "from") := by
      rw [List.map_append, show (bs "select ").map lower = bs "select" ++ [32] by decide, show (bs "from").map lower = bs "from" by decide]
      simp
    rw [e1] at he
    have hrest : ∀ y ∈ c.map lower ++ bs "from", isSp y = false := by
      intro y hy
      rcases List.mem_append.1 hy with hy | hy
      · obtain ⟨z, hz, rfl⟩ := List.mem_map.1 hy
        rw [lower_not_space]; exact hc z hz
      · exact (show ∀ y ∈ bs "from", isSp y = false by decide) y hy
    rcases List.append_eq_append_iff.1 he with ⟨as, h1, h2⟩ | ⟨as, h1, h2⟩
    · cases as with
      | nil => exact hno p (by simpa using h1)
      | cons y as' =>
        rw [List.cons_append] at h2
        obtain ⟨rfl, h3⟩ := List.cons.inj h2
        have := hrest b (by rw [h3]; simp)
        rw [hb] at this; cases this
    · cases as with
      | nil => exact hno p (by simpa using h1.symm)
      | cons y as' =>
        rw [List.cons_append] at h2
        obtain ⟨rfl, h3⟩ := List.cons.inj h2
        have := (show ∀ y ∈ bs "select", isSp y = false by decide) b (by rw [h1]; simp)
        rw [hb] at this; cases this
  have := statement_table_partial (bs "select", [bs "from"]) (by simp [factory]) (bs "select " ++ c) (bs "from") [32] x after
    ⟨[], bs "select", 32 :: (c ++ (bs "from" ++ ([32] ++ (x ++ after)))), by rw [show bs "select " = bs "select" ++ [32] by decide]; simp, by simp, by decide⟩
    hf (by simp) (by simp [isSp]) hx (fun b hb => hsp b (hxa b hb)) ha
  rw [this, if_pos hxa]

example : parseStatement (bs "select a_from x from t") = bs "select x *" := by decide +kernel
example : ∃ c x after, (∀ b ∈ c, isSp b = false) ∧ x ≠ [] ∧ (∀ b ∈ x, alphabetic b = true) ∧ (after = [] ∨ ∃ d r, after = d :: r ∧ isSp d = true) ∧
    bs "select a_from x from t" = bs "select " ++ c ++ (bs "from" ++ ([32] ++ (x ++ after))) :=
  ⟨bs "a_", bs "x", bs " from t", by decide, by decide, by decide, Or.inr ⟨32, bs "from t", by decide, by decide⟩, by decide⟩

example : (bs "select", [bs "from"]) ∈ factory := by decide +kernel
example : FirstKey [bs "from"] (bs "SELECT a ") (bs "From") := by
  constructor
  · decide +kernel
  · intro k hk p q b hb h
    simp only [List.mem_singleton] at hk
    subst hk
    have hl := congrArg List.length h
    have e1 : ((bs "SELECT a ").map lower ++ (bs "From").map lower).length = 13 := by decide +kernel
    have e2 : (bs "from").length = 4 := by decide +kernel
    rw [e1] at hl
    simp [e2] at hl
    have : ∀ i, i < 9 → ((bs "SELECT a ").map lower ++ (bs "From").map lower)[i]? ≠ some 102 := by decide +kernel
    apply this p.length (by omega)
    rw [h, List.append_assoc, List.getElem?_append_right (by omega)]
    simp only [Nat.sub_self]
    rw [List.getElem?_append_left (by omega)]
    decide +kernel

/-! ### The words used in the statements above, by their texts -/

theorem all_bytes {P : UInt8 → Prop} (h : ∀ n, n < 256 → P (UInt8.ofNat n)) (b : UInt8) : P b := by
  have := h b.toNat (UInt8.toNat_lt b)
  simpa using this

/-- C63: white space is what `\s` means, the letters of a table name are those of the pattern, and letters compare without case. -/
theorem letters (b : UInt8) :
    (isSp b = true ↔ b ∈ bs " \t\n\x0c\r") ∧
    (alphabetic b = true ↔ b ∈ bs "abcdefghijklmnopqrstuvwxyzABCDEFGHIJKLMNOPQRSTUVWXYZ_-") ∧
    (∀ i : Nat, (bs "ABCDEFGHIJKLMNOPQRSTUVWXYZ")[i]? = some b → (bs "abcdefghijklmnopqrstuvwxyz")[i]? = some (lower b)) ∧
    (b ∉ bs "ABCDEFGHIJKLMNOPQRSTUVWXYZ" → lower b = b) := by
  refine ⟨?_, ?_, ?_, ?_⟩
  · revert b; exact all_bytes (by decide +kernel)
  · revert b; exact all_bytes (by decide +kernel)
  · intro i h
    have hi : i < 26 := by
      rcases Nat.lt_or_ge i 26 with hi | hi
      · exact hi
      · rw [List.getElem?_eq_none (show (bs "ABCDEFGHIJKLMNOPQRSTUVWXYZ").length ≤ i from hi)] at h; cases h
    have : ∀ i : Nat, i < 26 → ((bs "ABCDEFGHIJKLMNOPQRSTUVWXYZ")[i]?).map lower = (bs "abcdefghijklmnopqrstuvwxyz")[i]? := by decide +kernel
    rw [← this i hi, h]; rfl
  · revert b; exact all_bytes (by decide +kernel)

/-- C63: the kinds of statement and the key words before the table, as in sql_merger.go:26-34. -/
theorem kinds_of_statement :
    factory.map (fun p => (p.1, p.2.intersperse (bs "|") |>.flatten)) =
      [("select", "from"), ("insert", "into"), ("update", "update"), ("delete", "from"), ("drop", "index|table|database"),
       ("create", "index|table|database"), ("alter", "table"), ("set", "set"), ("commit", "commit")].map (fun p => (bs p.1, bs p.2)) := by
  decide +kernel

end Kindling.Sql
