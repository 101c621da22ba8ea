import Verif.Proto.Readers
/-
C15, C16, C17: payload readers.
-/
namespace Kindling.Proto
open Kindling

/-! ## Lemmas -/

theorem idx_ok {d : Bytes} {i : Int} (h0 : 0 ≤ i) (h1 : i < d.length) : ∃ b, idx d i = .ok b ∧ d[i.toNat]? = some b := by
  have : i.toNat < d.length := by omega
  refine ⟨d[i.toNat], ?_, by simp [this]⟩
  simp [idx, h0, this]

theorem idx_nat {d : Bytes} {i : Nat} {b : UInt8} (h : d[i]? = some b) : idx d (i : Int) = .ok b := by
  simp [idx, h]

theorem slice_ok {d : Bytes} {a b : Int} (h : 0 ≤ a ∧ a ≤ b ∧ b ≤ d.length) :
    slice d a b = .ok ((d.drop a.toNat).take (b - a).toNat) := by simp [slice, h]

theorem slice_nat (p v q : Bytes) : slice (p ++ v ++ q) p.length (p.length + v.length : Nat) = .ok v := by
  rw [slice_ok (by simp; omega)]
  congr 1
  rw [show ((p.length : Int)).toNat = p.length by omega]
  rw [List.append_assoc, List.drop_left]
  rw [show (((p.length + v.length : Nat) : Int) - (p.length : Int)).toNat = v.length by omega]
  simp

/-- A piece `v` of the payload `d` that lies between `off` and `o`. -/
def Inside (d : Bytes) (off : Int) (v : Bytes) (o : Int) : Prop :=
  off ≤ o ∧ o ≤ d.length ∧ ∃ a : Nat, off ≤ a ∧ (a : Int) + v.length ≤ o ∧ (d.drop a).take v.length = v

theorem inside_slice {d : Bytes} {off a b o : Int} (h : 0 ≤ a ∧ a ≤ b ∧ b ≤ d.length) (h1 : off ≤ a) (h2 : b ≤ o) (h3 : o ≤ d.length) :
    Inside d off ((d.drop a.toNat).take (b - a).toNat) o := by
  refine ⟨by omega, h3, a.toNat, by omega, ?_, ?_⟩
  · simp only [List.length_take, List.length_drop]; omega
  · simp only [List.length_take, List.length_drop]
    rw [show min (b - a).toNat (d.length - a.toNat) = (b - a).toNat by omega]

/-- What a reader with offset may return: an error, or a piece of the payload behind the offset together with
a new offset behind the piece and inside the payload.  No panic. -/
def Safe (d : Bytes) (off : Int) (r : Res (Bytes × Int)) : Prop :=
  r = .err ∨ ∃ v o, r = .ok (v, o) ∧ Inside d off v o

/-- The same for readers that return a number. -/
def SafeNum {α : Type} (d : Bytes) (off : Int) (r : Res (α × Int)) : Prop :=
  r = .err ∨ ∃ v o, r = .ok (v, o) ∧ 0 ≤ off ∧ off < o ∧ o ≤ d.length

theorem readInt16_safe (d : Bytes) (off : Int) : SafeNum d off (readInt16 d off) := by
  simp only [readInt16]
  split
  · exact .inl rfl
  · split
    · exact .inl rfl
    · obtain ⟨a, ha, _⟩ := idx_ok (d := d) (i := off) (by omega) (by omega)
      obtain ⟨b, hb, _⟩ := idx_ok (d := d) (i := off + 1) (by omega) (by omega)
      right
      refine ⟨signed 16 (a.toNat <<< 8 ||| b.toNat), off + 2, ?_, by omega, by omega, by omega⟩
      simp [ha, hb]

theorem readInt32_safe (d : Bytes) (off : Int) : SafeNum d off (readInt32 d off) := by
  simp only [readInt32]
  split
  · exact .inl rfl
  · split
    · exact .inl rfl
    · obtain ⟨a, ha, _⟩ := idx_ok (d := d) (i := off) (by omega) (by omega)
      obtain ⟨b, hb, _⟩ := idx_ok (d := d) (i := off + 1) (by omega) (by omega)
      obtain ⟨c, hc, _⟩ := idx_ok (d := d) (i := off + 2) (by omega) (by omega)
      obtain ⟨e, he, _⟩ := idx_ok (d := d) (i := off + 3) (by omega) (by omega)
      right
      refine ⟨signed 32 (a.toNat <<< 24 ||| b.toNat <<< 16 ||| c.toNat <<< 8 ||| e.toNat), off + 4, ?_, by omega, by omega, by omega⟩
      simp [ha, hb, hc, he]

theorem varIntLoop_safe (d : Bytes) (off : Int) (h : 0 ≤ off) (n : Nat) : ∀ i x s, SafeNum d off (varIntLoop d off n i x s) := by
  induction n with
  | zero => intro i x s; exact .inl rfl
  | succ n ih =>
    intro i x s
    simp only [varIntLoop]
    split
    · exact .inl rfl
    · obtain ⟨a, ha, _⟩ := idx_ok (d := d) (i := off + i) (by omega) (by omega)
      simp only [ha, Res.bind_ok]
      split
      · exact .inr ⟨_, _, rfl, h, by omega, by omega⟩
      · exact ih _ _ _

theorem readUnsignedVarInt_safe (d : Bytes) (off : Int) : SafeNum d off (readUnsignedVarInt d off) := by
  simp only [readUnsignedVarInt]
  split
  · exact .inl rfl
  · exact varIntLoop_safe d off (by omega) _ _ _ _

theorem takeString_safe {d : Bytes} {off o len : Int} {long : Bool} (h : 0 ≤ off) (h1 : off ≤ o) (h2 : o ≤ d.length)
    (hl : 0 ≤ len) (hn : long = false → o + len ≤ d.length) : Safe d off (takeString d o len long) := by
  simp only [takeString]
  split
  · rw [slice_ok (by omega)]
    exact .inr ⟨_, _, rfl, inside_slice (by omega) h1 (by omega) (by omega)⟩
  · rename_i hh
    have := hn (by simpa using hh)
    rw [slice_ok (by omega)]
    exact .inr ⟨_, _, rfl, inside_slice (by omega) h1 (by omega) (by omega)⟩

theorem safe_readString (d : Bytes) (off : Int) (compact : Bool) : Safe d off (readString d off compact) := by
  cases compact with
  | false =>
    simp only [readString, Bool.false_eq_true, ↓reduceIte, readStringPlain]
    rcases readInt16_safe d off with h | ⟨v, o, h, h0, h1, h2⟩
    · left; simp [h]
    · simp only [h, Res.bind_ok]
      split
      · exact .inl rfl
      · exact takeString_safe h0 (by omega) h2 (by omega) (by simp; omega)
  | true =>
    simp only [readString, ↓reduceIte, readCompactString]
    rcases readUnsignedVarInt_safe d off with h | ⟨v, o, h, h0, h1, h2⟩
    · left; simp [h]
    · simp only [h, Res.bind_ok]
      split
      · exact .inl rfl
      · exact takeString_safe h0 (by omega) h2 (by omega) (by simp; omega)

/-- C15 for nullable strings: null, or as for `Safe`. -/
def SafeOpt (d : Bytes) (off : Int) (r : Res (Option Bytes × Int)) : Prop :=
  r = .err ∨ (∃ o, r = .ok (none, o) ∧ off < o ∧ o ≤ d.length) ∨ ∃ v o, r = .ok (some v, o) ∧ Inside d off v o

theorem safeOpt_map {d : Bytes} {off : Int} {r : Res (Bytes × Int)} (h : Safe d off r) :
    SafeOpt d off (r >>= fun p => pure (some p.1, p.2)) := by
  rcases h with h | ⟨v, o, h, hi⟩
  · left; simp [h]
  · right; right; exact ⟨v, o, by simp [h], hi⟩

theorem safe_readNullableString (d : Bytes) (off : Int) (compact : Bool) : SafeOpt d off (readNullableStringC d off compact) := by
  cases compact with
  | false =>
    simp only [readNullableStringC, Bool.false_eq_true, ↓reduceIte, readNullableString]
    rcases readInt16_safe d off with h | ⟨v, o, h, h0, h1, h2⟩
    · left; simp [h]
    · simp only [h, Res.bind_ok]
      split
      · exact .inl rfl
      · split
        · exact .inr (.inl ⟨o, rfl, h1, h2⟩)
        · exact safeOpt_map (takeString_safe h0 (by omega) h2 (by omega) (by simp; omega))
  | true =>
    simp only [readNullableStringC, ↓reduceIte, readCompactNullableString]
    rcases readUnsignedVarInt_safe d off with h | ⟨v, o, h, h0, h1, h2⟩
    · left; simp [h]
    · simp only [h, Res.bind_ok]
      split
      · exact .inl rfl
      · split
        · exact .inr (.inl ⟨o, rfl, h1, h2⟩)
        · exact safeOpt_map (takeString_safe h0 (by omega) h2 (by omega) (by simp; omega))

/-! ## C15 -/

/-- C15: the number readers, for every payload and every offset: an error, or the new offset lies behind the old
one and inside the payload. -/
theorem number_readers_safe (d : Bytes) (off : Int) (compact : Bool) :
    SafeNum d off (readInt16 d off) ∧ SafeNum d off (readInt32 d off) ∧ SafeNum d off (readUnsignedVarInt d off) ∧
    SafeNum d off (readVarInt d off) ∧ SafeNum d off (readArraySize d off compact) ∧
    (readUInt16 d off = .err ∨ ∃ v, readUInt16 d off = .ok v ∧ v < 65536 ∧ 0 ≤ off ∧ off + 2 ≤ d.length) := by
  refine ⟨readInt16_safe d off, readInt32_safe d off, readUnsignedVarInt_safe d off, ?_, ?_, ?_⟩
  · simp only [readVarInt]
    rcases readUnsignedVarInt_safe d off with h | ⟨v, o, h, h1⟩
    · left; simp [h]
    · right; exact ⟨_, o, by simp only [h, Res.bind_ok]; rfl, h1⟩
  · cases compact with
    | false =>
      simp only [readArraySize, Bool.false_eq_true, ↓reduceIte, readArraySizePlain]
      rcases readInt32_safe d off with h | ⟨v, o, h, h1⟩
      · left; simp [h]
      · simp only [h, Res.bind_ok]
        split
        · exact .inl rfl
        · split <;> exact .inr ⟨_, o, rfl, h1⟩
    | true =>
      simp only [readArraySize, ↓reduceIte, readCompactArraySize]
      rcases readUnsignedVarInt_safe d off with h | ⟨v, o, h, h1⟩
      · left; simp [h]
      · simp only [h, Res.bind_ok]
        split
        · exact .inl rfl
        · split <;> exact .inr ⟨_, o, rfl, h1⟩
  · simp only [readUInt16]
    split
    · exact .inl rfl
    · split
      · exact .inl rfl
      · obtain ⟨a, ha, _⟩ := idx_ok (d := d) (i := off) (by omega) (by omega)
        obtain ⟨b, hb, _⟩ := idx_ok (d := d) (i := off + 1) (by omega) (by omega)
        right
        refine ⟨a.toNat <<< 8 ||| b.toNat, by simp [ha, hb], ?_, by omega, by omega⟩
        have h1 := a.toNat_lt
        have h2 := b.toNat_lt
        apply Nat.or_lt_two_pow (n := 16)
        · rw [Nat.shiftLeft_eq]; omega
        · omega

/-- C15: the string and byte readers, for every payload, offset and length. -/
theorem string_readers_safe (d : Bytes) (off len : Int) (compact : Bool) :
    Safe d off (readBytes d off len) ∧ Safe d off (readString d off compact) ∧ SafeOpt d off (readNullableStringC d off compact) := by
  refine ⟨?_, safe_readString d off compact, safe_readNullableString d off compact⟩
  simp only [readBytes]
  split
  · exact .inl rfl
  · rename_i hn
    have hn' : 0 ≤ off ∧ 0 ≤ len := by omega
    split
    · exact .inl rfl
    · rw [slice_ok (by omega)]
      exact .inr ⟨_, _, rfl, inside_slice (by omega) (by omega) (by omega) (by omega)⟩

theorem findBlank_lt {l : Bytes} {j : Nat} (h : findBlank l = some j) : j < l.length := by
  induction l generalizing j with
  | nil => simp [findBlank] at h
  | cons b r ih =>
    simp only [findBlank] at h
    split at h
    · cases h; simp
    · cases hf : findBlank r with
      | none => simp [hf] at h
      | some k => simp [hf] at h; subst h; have := ih hf; simp; omega

theorem findCR_lt {l : Bytes} {j : Nat} (h : findCR l = some j) : j < l.length := by
  induction l generalizing j with
  | nil => simp [findCR] at h
  | cons b r ih =>
    simp only [findCR] at h
    split at h
    · cases h; simp
    · cases hf : findCR r with
      | none => simp [hf] at h
      | some k => simp [hf] at h; subst h; have := ih hf; simp; omega

/-- The delimiter readers return the offset first. -/
def flip (r : Res (Int × Bytes)) : Res (Bytes × Int) := r >>= fun p => pure (p.2, p.1)

/-- C15: reading up to CR LF, for every payload and offset. -/
theorem readUntilCRLF_safe (d : Bytes) (start : Nat) : Safe d start (flip (readUntilCRLF d start)) := by
  simp only [readUntilCRLF]
  split
  · exact .inl rfl
  · split
    · rw [slice_ok (by omega)]
      exact .inr ⟨_, _, rfl, inside_slice (by omega) (by omega) (by omega) (by omega)⟩
    · rename_i j hj
      have hlt := findCR_lt hj
      simp only [List.length_drop] at hlt
      split
      · rw [slice_ok (by omega)]
        exact .inr ⟨_, _, rfl, inside_slice (by omega) (by omega) (by omega) (by omega)⟩
      · obtain ⟨c, hc, _⟩ := idx_ok (d := d) (i := ((start + j + 1 : Nat) : Int)) (by omega) (by omega)
        simp only [hc, Res.bind_ok]
        split
        · rw [slice_ok (by omega)]
          exact .inr ⟨_, _, rfl, inside_slice (by omega) (by omega) (by omega) (by omega)⟩
        · exact .inl rfl

/-- C15, for offsets inside the payload: reading up to a blank.  Beyond the payload these two readers panic:
`readUntilBlank_panics`. -/
theorem readUntilBlank_safe_partial (d : Bytes) (start fixed : Nat) (h : start ≤ d.length) :
    Safe d start (flip (readUntilBlank d start)) ∧ Safe d start (flip (readUntilBlankWithLength d start fixed)) := by
  constructor
  · simp only [readUntilBlank]
    split
    · rename_i j hj
      have hlt := findBlank_lt hj
      simp only [List.length_drop] at hlt
      rw [slice_ok (by omega)]
      exact .inr ⟨_, _, rfl, inside_slice (by omega) (by omega) (by omega) (by omega)⟩
    · rw [slice_ok (by omega)]
      exact .inr ⟨_, _, rfl, inside_slice (by omega) (by omega) (by omega) (by omega)⟩
  · simp only [readUntilBlankWithLength]
    have hL : start ≤ (if fixed + start < d.length then start + fixed else d.length) ∧
        (if fixed + start < d.length then start + fixed else d.length) ≤ d.length := by split <;> omega
    generalize (if fixed + start < d.length then start + fixed else d.length) = L at hL
    split
    · rename_i j hj
      have hlt := findBlank_lt hj
      simp only [List.length_drop, List.length_take] at hlt
      rw [slice_ok (by omega)]
      exact .inr ⟨_, _, rfl, inside_slice (by omega) (by omega) (by omega) (by omega)⟩
    · rw [slice_ok (by omega)]
      exact .inr ⟨_, _, rfl, inside_slice (by omega) (by omega) (by omega) (by omega)⟩

/-- C15 fails of the code behind the end of the payload: reading up to a blank panics there, for every payload. -/
theorem readUntilBlank_panics (d : Bytes) (start fixed : Nat) (h : d.length < start) :
    readUntilBlank d start = .panic ∧ readUntilBlankWithLength d start fixed = .panic := by
  have h1 : findBlank (d.drop start) = none := by rw [List.drop_eq_nil_of_le (by omega)]; rfl
  constructor
  · simp only [readUntilBlank, h1, slice]
    rw [if_neg (by omega)]; rfl
  · simp only [readUntilBlankWithLength]
    rw [if_neg (by omega)]
    rw [List.take_length, h1]
    simp only [slice]
    rw [if_neg (by omega)]; rfl

/-- The readers succeed on concrete payloads. -/
example : readString [0, 2, 97, 98, 99] 0 false = .ok ([97, 98], 4) := by decide
example : readUntilBlank (bs "GET /x HTTP") 4 = .ok (7, bs "/x") := by decide
example : readUntilCRLF (bs "a\r\nb") 0 = .ok (3, bs "a") := by decide

end Kindling.Proto
