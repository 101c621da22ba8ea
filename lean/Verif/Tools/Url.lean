import Verif.Tools.Ip
/-
Model of collector/pkg/urlclustering and property C30.
-/
namespace Kindling.Url
open Kindling Kindling.Ip

/-- alphabet.go:116-118 `isAlphabetical`. -/
def isAlphabetical (b : UInt8) : Bool := b = 45 || b = 95 || (65 ≤ b && b ≤ 90) || (97 ≤ b && b ≤ 122)

/-- alphabet.go:68-113: the loop, with `resultBytes`, `currentSegment` and `currentSegmentIsStar`. -/
def loop : Bytes → Bytes → Bytes → Bool → Bytes
  | [], res, cur, star => if star then res ++ [42] else if cur.length ≠ 0 then res ++ cur else res
  | b :: r, res, cur, star =>
    if b = 32 then loop r res cur star
    else if b = 47 then loop r ((res ++ (if star then [42] else cur)) ++ [47]) [] false
    else if b = 63 then res ++ (if star then [42] else cur)
    else if star then loop r res cur star
    else if isAlphabetical b then loop r res (cur ++ [b]) (decide ((cur ++ [b]).length > 25))
    else loop r res cur true

/-- alphabet.go:62-114 `Clustering`. -/
def clustering (endpoint : Bytes) : Bytes := if endpoint = [] then [] else loop endpoint [] [] false

/-- `strings.Index(s, "?")` and the slice before it. -/
def beforeQuery : Bytes → Bytes
  | [] => []
  | b :: r => if b = 63 then [] else b :: beforeQuery r

/-- ASCII white space (`strings.TrimSpace` also trims the other Unicode spaces: not modelled). -/
def isSpace (b : UInt8) : Bool := b = 32 || (9 ≤ b && b ≤ 13)

/-- `strings.TrimSpace`. -/
def trimSpace (s : Bytes) : Bytes := ((s.dropWhile isSpace).reverse.dropWhile isSpace).reverse

/-- alphabet.go:51-57: segments combined with slashes. -/
def join : List Bytes → Bytes
  | [] => []
  | [s] => s
  | s :: r => s ++ 47 :: join r

/-- alphabet.go:39-48: one segment; the regular expression (15) matches non-empty alphabetical text. -/
def baseSegment (s : Bytes) : Bytes :=
  if s.length > 25 then [42]
  else if s = [] ∨ (s ≠ [] ∧ s.all isAlphabetical) then s
  else [42]

/-- alphabet.go:23-60 `ClusteringBaseline`. -/
def clusteringBaseline (endpoint : Bytes) : Bytes :=
  if endpoint = [] then [] else join ((split 47 (trimSpace (beforeQuery endpoint))).map baseSegment)

/-- noparam.go:15-27 `Clustering`. -/
def noParam (endpoint : Bytes) : Bytes := if endpoint = [] then [] else beforeQuery (trimSpace endpoint)

/-! ## Specification -/

/-- A segment that is not kept. -/
def Variable (s : Bytes) : Prop := 25 < s.length ∨ ∃ b ∈ s, isAlphabetical b = false

instance (s : Bytes) : Decidable (Variable s) := by unfold Variable; infer_instance

/-- How a segment appears. -/
def shown (s : Bytes) : Bytes := if Variable s then [42] else s

/-- The path without query string and blanks. -/
def path (e : Bytes) : Bytes := (e.takeWhile (· ≠ 63)).filter (· ≠ 32)

/-- Its segments. -/
def segments (e : Bytes) : List Bytes := split 47 (path e)

/-! ## Proofs -/

theorem variable_append {p q : Bytes} (h : Variable p) : Variable (p ++ q) := by
  rcases h with h | ⟨b, hb, h⟩
  · exact .inl (by simp; omega)
  · exact .inr ⟨b, by simp [hb], h⟩

theorem split_ne (l : Bytes) : split 47 l ≠ [] := by
  cases l with
  | nil => simp [split]
  | cons b r => simp only [split]; split <;> (try split) <;> simp

/-- `p` put before the first segment. -/
def onFirst (p : Bytes) : List Bytes → List Bytes
  | [] => []
  | s :: r => (p ++ s) :: r

theorem split_cons_other {b : UInt8} (h : b ≠ 47) (r : Bytes) : split 47 (b :: r) = onFirst [b] (split 47 r) := by
  simp only [split, if_neg h]
  cases hs : split 47 r with
  | nil => exact absurd hs (split_ne r)
  | cons s t => simp [onFirst]

theorem split_cons_slash (r : Bytes) : split 47 (47 :: r) = [] :: split 47 r := by simp [split]

theorem onFirst_onFirst (p q : Bytes) (l : List Bytes) : onFirst p (onFirst q l) = onFirst (p ++ q) l := by
  cases l <;> simp [onFirst]

theorem onFirst_nil (l : List Bytes) : onFirst [] l = l := by cases l <;> simp [onFirst]

theorem join_cons {s : Bytes} {l : List Bytes} (h : l ≠ []) : join (s :: l) = s ++ 47 :: join l := by
  cases l with
  | nil => exact absurd rfl h
  | cons => rfl

theorem path_cons (b : UInt8) (r : Bytes) : path (b :: r) = if b = 63 then [] else if b = 32 then path r else b :: path r := by
  by_cases h1 : b = 63
  · simp [path, h1]
  · by_cases h2 : b = 32
    · simp [path, h2]
    · simp [path, h1, h2]

theorem loop_eq (r : Bytes) : ∀ (res cur p : Bytes) (star : Bool),
    (star = true → Variable p) → (star = false → cur = p ∧ ¬ Variable p) →
    loop r res cur star = res ++ join ((onFirst p (split 47 (path r))).map shown) := by
  induction r with
  | nil =>
    intro res cur p star h1 h2
    simp only [loop, path, List.takeWhile_nil, List.filter_nil, split, onFirst, List.append_nil, List.map_cons, List.map_nil, join]
    cases star with
    | true => simp [shown, h1 rfl]
    | false =>
      obtain ⟨e, hv⟩ := h2 rfl
      subst e
      simp only [Bool.false_eq_true, ↓reduceIte, shown, if_neg hv]
      split
      · rfl
      · rename_i hz; simp at hz; simp [hz]
  | cons b r ih =>
    intro res cur p star h1 h2
    have hcur : (if star = true then [42] else cur) = shown p := by
      cases star with
      | true => simp [shown, h1 rfl]
      | false => obtain ⟨e, hv⟩ := h2 rfl; subst e; simp [shown, hv]
    simp only [loop]
    by_cases hb : b = 32
    · rw [if_pos hb, ih res cur p star h1 h2, path_cons, if_neg (by subst hb; decide), if_pos hb]
    rw [if_neg hb]
    by_cases hs : b = 47
    · subst hs
      rw [if_pos rfl, ih _ [] [] false (by simp) (fun _ => ⟨rfl, by simp [Variable]⟩), path_cons,
        if_neg (show ¬ (47 : UInt8) = 63 by decide), if_neg (show ¬ (47 : UInt8) = 32 by decide), split_cons_slash, onFirst_nil, hcur]
      simp only [onFirst, List.append_nil, List.map_cons]
      rw [join_cons (by simp [split_ne])]
      simp
    rw [if_neg hs]
    by_cases hq : b = 63
    · rw [if_pos hq, path_cons, if_pos hq, hcur]
      simp [split, onFirst, join]
    rw [if_neg hq, path_cons, if_neg hq, if_neg hb, split_cons_other hs, onFirst_onFirst]
    cases star with
    | true =>
      simp only [↓reduceIte]
      exact ih res cur (p ++ [b]) true (fun _ => variable_append (h1 rfl)) (by simp)
    | false =>
      obtain ⟨e, hv⟩ := h2 rfl
      subst e
      simp only [Bool.false_eq_true, ↓reduceIte]
      have hlen : ¬ 25 < cur.length := fun h => hv (.inl h)
      have hall : ∀ x ∈ cur, isAlphabetical x = true := by
        intro x hx
        cases hx' : isAlphabetical x with
        | true => rfl
        | false => exact absurd (.inr ⟨x, hx, hx'⟩) hv
      by_cases ha : isAlphabetical b = true
      · rw [if_pos ha]
        apply ih
        · intro h; exact .inl (by simpa using h)
        · intro h
          refine ⟨rfl, ?_⟩
          rintro (h' | ⟨x, hx, h'⟩)
          · simp at h h'; omega
          · rcases List.mem_append.1 hx with hx | hx
            · rw [hall x hx] at h'; simp at h'
            · simp only [List.mem_singleton] at hx; subst hx; rw [ha] at h'; simp at h'
      · rw [if_neg ha]
        apply ih
        · intro _; exact .inr ⟨b, by simp, by simpa using ha⟩
        · simp

/-- C30: query string and blanks are dropped, every segment is shown as itself or, if it is longer than 25 bytes or
contains a byte that is not alphabetical, as one star. -/
theorem clustering_spec (e : Bytes) : clustering e = join ((segments e).map shown) := by
  simp only [clustering]
  split
  · rename_i h; subst h; decide
  · rw [loop_eq e [] [] [] false (by simp) (fun _ => ⟨rfl, by simp [Variable]⟩), onFirst_nil]
    rfl

theorem split_no_slash (l : Bytes) : ∀ s ∈ split 47 l, (47 : UInt8) ∉ s := by
  induction l with
  | nil => simp [split]
  | cons b r ih =>
    by_cases h : b = 47
    · subst h; rw [split_cons_slash]; intro s hs
      rcases List.mem_cons.1 hs with rfl | hs
      · simp
      · exact ih s hs
    · rw [split_cons_other h]
      intro s hs
      cases hr : split 47 r with
      | nil => rw [hr] at hs; simp [onFirst] at hs
      | cons t u =>
        rw [hr] at hs ih
        simp only [onFirst, List.mem_cons] at hs
        rcases hs with rfl | hs
        · have := ih t (by simp)
          simp [this, Ne.symm h]
        · exact ih s (by simp [hs])

theorem split_join (l : List Bytes) (hne : l ≠ []) (h : ∀ s ∈ l, (47 : UInt8) ∉ s) : split 47 (join l) = l := by
  induction l with
  | nil => exact absurd rfl hne
  | cons s r ih =>
    cases r with
    | nil => simp only [join]; exact split_last s (fun b hb e => h s (by simp) (e ▸ hb))
    | cons t u =>
      rw [join_cons (by simp), split_piece (sep := 47) s _ (fun b hb e => h s (by simp) (e ▸ hb)), ih (by simp) (fun x hx => h x (by simp [hx]))]

theorem shown_bytes (s : Bytes) : ∀ b ∈ shown s, isAlphabetical b = true ∨ b = 42 := by
  intro b hb
  simp only [shown] at hb
  split at hb
  · simp at hb; exact .inr hb
  · rename_i hv
    left
    cases h : isAlphabetical b with
    | true => rfl
    | false => exact absurd (.inr ⟨b, hb, h⟩) hv

theorem join_bytes (P : UInt8 → Prop) (l : List Bytes) (h : ∀ s ∈ l, ∀ b ∈ s, P b) (hs : P 47) : ∀ b ∈ join l, P b := by
  induction l with
  | nil => simp [join]
  | cons s r ih =>
    cases r with
    | nil => simpa [join] using h
    | cons t u =>
      rw [join_cons (by simp)]
      intro b hb
      rcases List.mem_append.1 hb with hb | hb
      · exact h s (by simp) b hb
      · rcases List.mem_cons.1 hb with rfl | hb
        · exact hs
        · exact ih (fun x hx => h x (by simp [hx])) b hb

/-- C30: nothing but letters, `-`, `_`, `/` and `*` appears: no digit of an identifier gets through. -/
theorem clustering_bytes (e : Bytes) : ∀ b ∈ clustering e, isAlphabetical b = true ∨ b = 42 ∨ b = 47 := by
  rw [clustering_spec]
  apply join_bytes
  · intro s hs b hb
    obtain ⟨t, _, rfl⟩ := List.mem_map.1 hs
    rcases shown_bytes t b hb with h | h
    · exact .inl h
    · exact .inr (.inl h)
  · exact .inr (.inr rfl)

theorem path_id (l : Bytes) (h : ∀ b ∈ l, b ≠ 63 ∧ b ≠ 32) : path l = l := by
  induction l with
  | nil => rfl
  | cons b r ih =>
    have hb := h b (by simp)
    rw [path_cons, if_neg hb.1, if_neg hb.2, ih (fun x hx => h x (by simp [hx]))]

theorem clustering_path (e : Bytes) : path (clustering e) = clustering e := by
  apply path_id
  intro b hb
  rcases clustering_bytes e b hb with h | h | h
  · constructor <;> rintro rfl <;> simp [isAlphabetical] at h
  · subst h; decide
  · subst h; decide

theorem shown_no_slash (s : Bytes) : (47 : UInt8) ∉ shown s := by
  intro h
  rcases shown_bytes s 47 h with h | h <;> simp [isAlphabetical] at h

/-- C30: the number of segments is kept, each one being shown in its place. -/
theorem clustering_segments (e : Bytes) : segments (clustering e) = (segments e).map shown := by
  rw [segments, clustering_path, clustering_spec]
  apply split_join
  · simp [segments, split_ne]
  · intro s hs
    obtain ⟨t, _, rfl⟩ := List.mem_map.1 hs
    exact shown_no_slash t

theorem shown_shown (s : Bytes) : shown (shown s) = shown s := by
  by_cases h : Variable s
  · simp only [shown, if_pos h]; decide
  · simp [shown, h]

/-- C30: clustering a clustered URL changes nothing. -/
theorem clustering_idempotent (e : Bytes) : clustering (clustering e) = clustering e := by
  rw [clustering_spec (clustering e), clustering_segments, List.map_map]
  have : shown ∘ shown = shown := funext shown_shown
  rw [this, ← clustering_spec]

/-- C30: two URLs with the same path and different queries fall into one cluster. -/
theorem clustering_ignores_query (p q : Bytes) (h : (63 : UInt8) ∉ p) : clustering (p ++ 63 :: q) = clustering p := by
  rw [clustering_spec, clustering_spec, segments, segments]
  congr 3
  simp only [path]
  congr 1
  induction p with
  | nil => simp
  | cons b r ih =>
    have hb : b ≠ 63 := fun e => h (by simp [e])
    have := ih (fun e => h (by simp [e]))
    simp [hb] at this ⊢
    exact this

/-! ### The readable version -/

theorem mem_takeWhile {p : UInt8 → Bool} {l : Bytes} {b : UInt8} (h : b ∈ l.takeWhile p) : b ∈ l ∧ p b = true := by
  induction l with
  | nil => simp at h
  | cons a r ih =>
    simp only [List.takeWhile_cons] at h
    split at h
    · rename_i hp
      rcases List.mem_cons.1 h with rfl | h
      · exact ⟨by simp, hp⟩
      · exact ⟨by simp [(ih h).1], (ih h).2⟩
    · simp at h

theorem takeWhile_id {p : UInt8 → Bool} {l : Bytes} (h : ∀ b ∈ l, p b = true) : l.takeWhile p = l := by
  induction l with
  | nil => rfl
  | cons a r ih => rw [List.takeWhile_cons, if_pos (h a (by simp)), ih (fun b hb => h b (by simp [hb]))]

theorem beforeQuery_eq (e : Bytes) : beforeQuery e = e.takeWhile (· ≠ 63) := by
  induction e with
  | nil => rfl
  | cons b r ih => by_cases h : b = 63 <;> simp [beforeQuery, h, ih]

theorem trimSpace_id (s : Bytes) (h : ∀ b ∈ s, isSpace b = false) : trimSpace s = s := by
  have key : ∀ l : Bytes, (∀ b ∈ l, isSpace b = false) → l.dropWhile isSpace = l := by
    intro l hl
    cases l with
    | nil => rfl
    | cons b r => simp [hl b (by simp)]
  rw [trimSpace, key s h, key s.reverse (fun b hb => h b (by simpa using hb)), List.reverse_reverse]

theorem baseSegment_eq (s : Bytes) : baseSegment s = shown s := by
  simp only [baseSegment]
  by_cases h1 : s.length > 25
  · rw [if_pos h1, shown, if_pos (.inl h1)]
  · rw [if_neg h1]
    by_cases h2 : ∃ b ∈ s, isAlphabetical b = false
    · rw [if_neg, shown, if_pos (.inr h2)]
      obtain ⟨b, hb, h⟩ := h2
      rintro (rfl | ⟨_, h'⟩)
      · simp at hb
      · rw [List.all_eq_true] at h'; have := h' b hb; rw [h] at this; simp at this
    · have hv : ¬ Variable s := by rintro (h | h); exact h1 h; exact h2 h
      rw [shown, if_neg hv, if_pos]
      cases s with
      | nil => exact .inl rfl
      | cons b r =>
        right
        refine ⟨by simp, ?_⟩
        rw [List.all_eq_true]
        intro x hx
        cases h : isAlphabetical x with
        | true => rfl
        | false => exact absurd ⟨x, hx, h⟩ h2

/-- C30, refinement: on URLs without white space the loop computes what `ClusteringBaseline` documents. -/
theorem clustering_refines_baseline (e : Bytes) (h : ∀ b ∈ e, isSpace b = false) : clustering e = clusteringBaseline e := by
  rw [clustering_spec, clusteringBaseline]
  split
  · rename_i he; subst he; decide
  · have hm : ∀ b ∈ e.takeWhile (· ≠ 63), isSpace b = false := fun b hb => h b ((mem_takeWhile hb).1)
    rw [beforeQuery_eq, trimSpace_id _ hm, segments, path, List.filter_eq_self.2]
    · congr 1; apply List.map_congr_left; intro s _; exact (baseSegment_eq s).symm
    · intro b hb
      have := hm b hb
      simp only [decide_eq_true_eq]
      rintro rfl
      simp [isSpace] at this

/-- The readable version is a different function on blanks inside: `/a b` is `/ab` for one and `/*` for the other. -/
theorem clustering_differs_on_blank : clustering (bs "/a b") = bs "/ab" ∧ clusteringBaseline (bs "/a b") = bs "/*" := by
  decide +kernel

/-- C30 for the method `noparam`: no query is left, and applying it again changes nothing, if there is no white space. -/
theorem noParam_spec (e : Bytes) (h : ∀ b ∈ e, isSpace b = false) :
    noParam e = e.takeWhile (· ≠ 63) ∧ (63 : UInt8) ∉ noParam e ∧ noParam (noParam e) = noParam e := by
  have e1 : ∀ l : Bytes, (∀ b ∈ l, isSpace b = false) → noParam l = l.takeWhile (· ≠ 63) := by
    intro l hl
    simp only [noParam]
    split
    · rename_i hl; subst hl; rfl
    · rw [trimSpace_id _ hl, beforeQuery_eq]
  refine ⟨e1 e h, ?_, ?_⟩
  · rw [e1 e h]; intro hm; have := (mem_takeWhile hm).2; simp at this
  · rw [e1 e h, e1 _ (fun b hb => h b ((mem_takeWhile hb).1)), takeWhile_id (fun b hb => (mem_takeWhile hb).2)]

example : clustering (bs "/test/22?v=a") = bs "/test/*" := by decide +kernel

/-- C30: the characters that may stay in a segment, and the white space, by their texts. -/
theorem letters (b : UInt8) :
    (isAlphabetical b = true ↔ b ∈ bs "abcdefghijklmnopqrstuvwxyzABCDEFGHIJKLMNOPQRSTUVWXYZ-_") ∧
    (isSpace b = true ↔ b ∈ bs "\t\n\x0b\x0c\r ") := by
  have h : ∀ n, n < 256 → (isAlphabetical (UInt8.ofNat n) = true ↔ UInt8.ofNat n ∈ bs "abcdefghijklmnopqrstuvwxyzABCDEFGHIJKLMNOPQRSTUVWXYZ-_") ∧
      (isSpace (UInt8.ofNat n) = true ↔ UInt8.ofNat n ∈ bs "\t\n\x0b\x0c\r ") := by decide +kernel
  have := h b.toNat (UInt8.toNat_lt b)
  simpa using this

end Kindling.Url
