import Verif.Proto.Dns
import Verif.Proto.Codec
/-
C18, C19: decoding of DNS names and answers.  The specification below is RFC 1035, sections 3.1, 4.1.3, 4.1.4 and
5.1, written independently of the code.
-/
namespace Kindling.Proto.Dns
open Kindling Kindling.Proto

/-! ## Specification -/

/-- RFC 1035, 4.1.4: the name at offset `off` of a message has these labels, is read through `p` pointers, and
ends before offset `e`. -/
inductive NameAt (msg : Bytes) : Nat → List Bytes → Nat → Nat → Prop
  | root {off} (h : msg[off]? = some 0) : NameAt msg off [] 0 (off + 1)
  | label {off l ls p e} (h0 : l ≠ []) (h63 : l.length ≤ 63) (hc : msg[off]? = some (UInt8.ofNat l.length))
      (hl : (msg.drop (off + 1)).take l.length = l) (hlen : off + 1 + l.length ≤ msg.length)
      (hr : NameAt msg (off + 1 + l.length) ls p e) : NameAt msg off (l :: ls) p e
  | pointer {off ls p e} (hi lo : Nat) (hhi : hi < 64) (hlo : lo < 256) (h1 : msg[off]? = some (UInt8.ofNat (192 + hi)))
      (h2 : msg[off + 1]? = some (UInt8.ofNat lo)) (hr : NameAt msg (256 * hi + lo) ls p e) :
      NameAt msg off ls (p + 1) (off + 2)

/-- The characters `. '@;()"\`. -/
def specials : Bytes := [46, 32, 39, 64, 59, 40, 41, 34, 92]

/-- RFC 1035, 5.1: text of a byte of a label: `\X` for the special ones, `\DDD` for unprintable ones. -/
def byteText (b : UInt8) : Bytes :=
  if b ∈ specials then [92, b]
  else if b.toNat < 32 ∨ 126 < b.toNat then
    [92, Dec.digit (b.toNat / 100), Dec.digit (b.toNat / 10 % 10), Dec.digit (b.toNat % 10)]
  else [b]

def labelText (l : Bytes) : Bytes := (l.map byteText).flatten ++ [46]
def labelsText (ls : List Bytes) : Bytes := (ls.map labelText).flatten
/-- The presentation of a name; the root is `.`. -/
def nameText (ls : List Bytes) : Bytes := if ls = [] then [46] else labelsText ls

/-- Octets of the labels on the wire. -/
def wireSize (ls : List Bytes) : Nat := (ls.map (fun l => l.length + 1)).sum

/-- RFC 1035, 3.1: the uncompressed form. -/
def wire (ls : List Bytes) : Bytes := (ls.map (fun l => UInt8.ofNat l.length :: l)).flatten ++ [0]

/-- A name one can put on the wire: labels of 1 to 63 octets, 255 octets in all. -/
def Legal (ls : List Bytes) : Prop := (∀ l ∈ ls, 1 ≤ l.length ∧ l.length ≤ 63) ∧ (wire ls).length ≤ 255

/-! ## The text of a label -/

theorem forall_uint8 {P : UInt8 → Prop} (h : ∀ n, n < 256 → P (UInt8.ofNat n)) (b : UInt8) : P b := by
  have := h b.toNat (UInt8.toNat_lt b)
  simpa using this

set_option maxRecDepth 100000 in
theorem labelByte_eq (b : UInt8) : labelByte b = .ok (byteText b) := by
  revert b
  apply forall_uint8
  decide +kernel

theorem labelBytes_eq (l s : Bytes) : labelBytes l s = .ok (s ++ (l.map byteText).flatten) := by
  induction l generalizing s with
  | nil => simp [labelBytes]
  | cons b r ih => simp [labelBytes, labelByte_eq, ih]

/-! ## The loop -/

theorem c_label : ∀ n, n < 256 → (n &&& 0xC0 = 0 ↔ n < 64) := by decide +kernel
theorem c_ptr : ∀ n, n < 256 → (n &&& 0xC0 = 0xC0 ↔ 192 ≤ n) := by decide +kernel
theorem c_xor : ∀ n, n < 256 → 192 ≤ n → n ^^^ 0xC0 = n - 192 := by decide +kernel

theorem ptr_target {c lo : Nat} (hc : c < 256) (h : 192 ≤ c) (hlo : lo < 256) : (c ^^^ 0xC0) <<< 8 ||| lo = 256 * (c - 192) + lo := by
  rw [c_xor c hc h, Nat.or_comm, or_shift (by omega)]; omega

theorem get_toNat {msg : Bytes} {off : Nat} (h : off < msg.length) : msg[off]? = some (UInt8.ofNat (msg[off]'h).toNat) := by
  simp [List.getElem?_eq_getElem h]

theorem unpackLoop_sound (msg : Bytes) (off off1 : Nat) (budget : Int) (ptr : Nat) (s : Bytes) (hb : 0 < budget) (hp : ptr ≤ 126) :
    unpackLoop msg off off1 budget ptr s = .err ∨
    ∃ ls p e, NameAt msg off ls p e ∧ (wireSize ls : Int) < budget ∧ ptr + p ≤ 126 ∧
      unpackLoop msg off off1 budget ptr s = .ok (s ++ labelsText ls, endOffset ptr e off1, ptr + p) := by
  fun_induction unpackLoop msg off off1 budget ptr s with
  | case1 off off1 budget ptr s h => exact Or.inl rfl
  | case2 off off1 budget ptr s h c off' h1 h2 =>
    right
    refine ⟨[], 0, off + 1, .root ?_, by simpa [wireSize] using hb, by omega, by simp [labelsText, off']⟩
    rw [get_toNat (by omega)]
    show some (UInt8.ofNat c) = _
    rw [h2]; rfl
  | case3 => exact Or.inl rfl
  | case4 => exact Or.inl rfl
  | case5 off off1 budget ptr s h c off' h1 h2 h3 budget' h4 l hl s' hs' ih =>
    have hc : c < 256 := UInt8.toNat_lt _
    have h64 : c < 64 := (c_label c hc).1 h1
    have hll : l = (msg.drop (off + 1)).take c := by
      have := slice_ok (d := msg) (a := (off' : Int)) (b := off' + c) ⟨by omega, by omega, by omega⟩
      rw [hl] at this
      simp only [Res.ok.injEq] at this
      rw [this]
      congr 1
      omega
    have hlen : l.length = c := by rw [hll]; simp; omega
    have hs : s' = s ++ (l.map byteText).flatten := by
      rw [labelBytes_eq] at hs'; exact (Res.ok.inj hs').symm
    rcases ih (by omega) hp with h | ⟨ls, p, e, hn, hw, hpp, heq⟩
    · exact Or.inl h
    · right
      refine ⟨l :: ls, p, e, ?_, ?_, hpp, ?_⟩
      · refine .label ?_ (by omega) ?_ ?_ (by omega) ?_
        · intro h0; rw [h0] at hlen; simp at hlen; omega
        · rw [hlen]; exact get_toNat (by omega)
        · rw [hlen]; exact hll.symm
        · rw [hlen]; exact hn
      · simp only [wireSize, List.map_cons, List.sum_cons] at hw ⊢
        simp only [budget'] at hw
        omega
      · rw [heq, hs]
        simp [labelsText, labelText]
  | case6 => exact Or.inl rfl
  | case7 off off1 budget ptr s h c off' h1 h2 h3 budget' h4 l hl hs' => rw [labelBytes_eq] at hs'; simp at hs'
  | case8 => exact Or.inl rfl
  | case9 off off1 budget ptr s h c off' h1 h2 h3 budget' h4 hl =>
    rw [slice_ok (by omega)] at hl; simp at hl
  | case10 => exact Or.inl rfl
  | case11 => exact Or.inl rfl
  | case12 off off1 budget ptr s h c off' h1 h2 h3 c1 off'' off1' h4 ih =>
    have hc : c < 256 := UInt8.toNat_lt _
    have hc1 : c1 < 256 := UInt8.toNat_lt _
    have h192 : 192 ≤ c := (c_ptr c hc).1 h2
    have hmax : maxPointers = 126 := rfl
    rw [hmax] at h4
    rcases ih hb (by omega) with h | ⟨ls, p, e, hn, hw, hpp, heq⟩
    · exact Or.inl h
    · right
      refine ⟨ls, p + 1, off + 2, ?_, hw, by omega, ?_⟩
      · refine .pointer (e := e) (c - 192) c1 (by omega) hc1 ?_ ?_ ?_
        · rw [show 192 + (c - 192) = c by omega]; exact get_toNat (by omega)
        · exact get_toNat (by omega)
        · rw [← ptr_target hc h192 hc1]; exact hn
      · rw [heq]
        simp [endOffset, off1', off'', off']
        omega
  | case13 => exact Or.inl rfl

theorem unpackLoop_complete {msg : Bytes} {off : Nat} {ls : List Bytes} {p e : Nat} (h : NameAt msg off ls p e) :
    ∀ (off1 : Nat) (budget : Int) (ptr : Nat) (s : Bytes), (wireSize ls : Int) < budget → ptr + p ≤ 126 →
      unpackLoop msg off off1 budget ptr s = .ok (s ++ labelsText ls, endOffset ptr e off1, ptr + p) := by
  induction h with
  | root h =>
    intro off1 budget ptr s hb hp
    obtain ⟨hlt, hget⟩ := List.getElem?_eq_some_iff.1 h
    rw [unpackLoop, dif_neg (by omega)]
    simp [hget, labelsText]
  | @label off l ls p e h0 h63 hc hl hlen hr ih =>
    intro off1 budget ptr s hb hp
    obtain ⟨hlt, hget⟩ := List.getElem?_eq_some_iff.1 hc
    have hpos : 0 < l.length := List.length_pos_iff.2 h0
    have hn : (UInt8.ofNat l.length).toNat = l.length := ofNat_toNat (by omega)
    have hand : l.length &&& 0xC0 = 0 := (c_label _ (by omega)).2 (by omega)
    simp only [wireSize, List.map_cons, List.sum_cons] at hb
    rw [unpackLoop]
    rw [dif_neg (by omega)]
    simp only [hget, hn, hand, ↓reduceIte]
    rw [if_neg (by omega), dif_neg (by omega), if_neg (by omega)]
    rw [slice_ok (by omega)]
    simp only [labelBytes_eq]
    have hsl : (msg.drop (((off + 1 : Nat) : Int)).toNat).take ((((off + 1 : Nat) : Int) + l.length) - ((off + 1 : Nat) : Int)).toNat = l := by
      rw [show (((off + 1 : Nat) : Int)).toNat = off + 1 by omega,
        show ((((off + 1 : Nat) : Int) + l.length) - ((off + 1 : Nat) : Int)).toNat = l.length by omega]
      exact hl
    rw [hsl]
    rw [ih off1 _ ptr _ (by simp only [wireSize]; omega) hp]
    simp [labelsText, labelText]
  | @pointer off ls p e hi lo hhi hlo h1 h2 hr ih =>
    intro off1 budget ptr s hb hp
    obtain ⟨hlt, hget⟩ := List.getElem?_eq_some_iff.1 h1
    obtain ⟨hlt2, hget2⟩ := List.getElem?_eq_some_iff.1 h2
    have hn : (UInt8.ofNat (192 + hi)).toNat = 192 + hi := ofNat_toNat (by omega)
    have hn2 : (UInt8.ofNat lo).toNat = lo := ofNat_toNat (by omega)
    have hand : ¬ (192 + hi) &&& 0xC0 = 0 := by rw [c_label _ (by omega)]; omega
    have hand2 : (192 + hi) &&& 0xC0 = 0xC0 := (c_ptr _ (by omega)).2 (by omega)
    rw [unpackLoop]
    rw [dif_neg (by omega)]
    simp only [hget, hn]
    rw [if_neg hand, if_pos hand2, dif_neg (by omega)]
    simp only [hget2, hn2]
    rw [dif_neg (by simp only [maxPointers, maxWireOctets]; omega)]
    rw [ptr_target (by omega) (by omega) hlo]
    rw [show 192 + hi - 192 = hi by omega]
    rw [ih _ budget (ptr + 1) s hb (by omega)]
    simp [endOffset]
    omega

/-! ## C18 -/

theorem labelsText_ne {l : Bytes} {ls : List Bytes} : labelsText (l :: ls) ≠ [] := by
  simp [labelsText, labelText]

theorem unpack_name (s : Bytes) (ls : List Bytes) (h : s = labelsText ls) : (if s.length = 0 then [46] else s) = nameText ls := by
  subst h
  cases ls with
  | nil => simp [labelsText, nameText]
  | cons l r =>
    have : (labelsText (l :: r)).length ≠ 0 := fun h => labelsText_ne (List.length_eq_zero_iff.1 h)
    simp [this, nameText]

/-- C18: decoding a name succeeds exactly when a name is encoded at the offset, with at most 126 pointers and
within 255 octets; the result is its presentation and the offset behind its encoding.  In every other case the
result is an error: there is no panic, whatever the message and offset. -/
theorem unpack_iff (msg : Bytes) (off : Nat) (name : Bytes) (o : Nat) :
    (unpackDomainName msg off = .ok (name, o) ↔
      ∃ ls p, NameAt msg off ls p o ∧ p ≤ 126 ∧ wireSize ls + 1 ≤ 255 ∧ name = nameText ls) ∧
    unpackDomainName msg off ≠ .panic := by
  have hs := unpackLoop_sound msg off 0 255 0 [] (by omega) (by omega)
  have hmax : (maxWireOctets : Int) = 255 := rfl
  constructor
  · constructor
    · intro h
      simp only [unpackDomainName, hmax] at h
      rcases hs with hs | ⟨ls, p, e, hn, hw, hp, heq⟩
      · rw [hs] at h; simp at h
      · rw [heq] at h
        simp only [Res.ok.injEq, Prod.mk.injEq, endOffset, ↓reduceIte] at h
        refine ⟨ls, p, h.2 ▸ hn, by omega, by omega, ?_⟩
        rw [← h.1]; exact unpack_name _ ls (by simp)
    · rintro ⟨ls, p, hn, hp, hw, rfl⟩
      have := unpackLoop_complete hn 0 255 0 [] (by omega) (by omega)
      simp only [unpackDomainName, hmax, this, endOffset, ↓reduceIte]
      congr 2
      exact unpack_name _ ls (by simp)
  · simp only [unpackDomainName, hmax]
    rcases hs with hs | ⟨ls, p, e, hn, hw, hp, heq⟩
    · rw [hs]; simp
    · rw [heq]; simp

/-- The wire form of a name is a name in the sense of RFC 1035, 4.1.4. -/
theorem wire_nameAt (ls : List Bytes) : ∀ (pre post : Bytes), (∀ l ∈ ls, 1 ≤ l.length ∧ l.length ≤ 63) →
    NameAt (pre ++ wire ls ++ post) pre.length ls 0 (pre.length + (wire ls).length) := by
  induction ls with
  | nil =>
    intro pre post _
    have : NameAt (pre ++ wire [] ++ post) pre.length [] 0 (pre.length + 1) := .root (by simp [wire])
    simpa [wire] using this
  | cons l r ih =>
    intro pre post h
    have hl := h l (by simp)
    have e : pre ++ wire (l :: r) ++ post = pre ++ (UInt8.ofNat l.length :: l) ++ wire r ++ post := by
      simp [wire]
    have hi := ih (pre ++ (UInt8.ofNat l.length :: l)) post (fun x hx => h x (by simp [hx]))
    rw [← e] at hi
    have e2 : (pre ++ (UInt8.ofNat l.length :: l)).length = pre.length + 1 + l.length := by simp; omega
    rw [e2] at hi
    have e3 : pre.length + (wire (l :: r)).length = pre.length + 1 + l.length + (wire r).length := by simp [wire]; omega
    rw [e3]
    refine .label (by intro h0; simp [h0] at hl) hl.2 ?_ ?_ ?_ hi
    · rw [e]; simp
    · rw [e]
      have : pre ++ (UInt8.ofNat l.length :: l) ++ wire r ++ post = (pre ++ [UInt8.ofNat l.length]) ++ (l ++ (wire r ++ post)) := by simp
      rw [this, List.drop_append_of_le_length (by simp)]
      rw [List.drop_eq_nil_of_le (by simp)]
      simp
    · rw [e]; simp; omega

theorem wire_length (ls : List Bytes) : (wire ls).length = wireSize ls + 1 := by
  simp [wire, wireSize, Function.comp_def]

/-- C18: every legal name, written without compression anywhere in a message, is decoded to its presentation. -/
theorem unpack_inverts_wire (ls : List Bytes) (h : Legal ls) (pre post : Bytes) :
    unpackDomainName (pre ++ wire ls ++ post) pre.length = .ok (nameText ls, pre.length + (wire ls).length) := by
  rw [(unpack_iff _ _ _ _).1]
  have := h.2
  rw [wire_length] at this
  exact ⟨ls, 0, wire_nameAt ls pre post h.1, by omega, this, rfl⟩

theorem nameAt_labels {msg : Bytes} {off : Nat} {ls : List Bytes} {p e : Nat} (h : NameAt msg off ls p e) :
    ∀ l ∈ ls, 1 ≤ l.length ∧ l.length ≤ 63 := by
  induction h with
  | root => simp
  | label h0 h63 _ _ _ _ ih =>
    intro x hx
    rcases List.mem_cons.1 hx with rfl | hx
    · exact ⟨List.length_pos_iff.2 h0, h63⟩
    · exact ih x hx
  | pointer _ _ _ _ _ _ _ ih => exact ih

theorem byteText_length (b : UInt8) : (byteText b).length ≤ 4 := by
  simp only [byteText]; split
  · simp
  · split <;> simp

theorem labelText_length (l : Bytes) : (labelText l).length ≤ 4 * l.length + 1 := by
  simp only [labelText, List.length_append, List.length_cons, List.length_nil]
  have : ((l.map byteText).flatten).length ≤ 4 * l.length := by
    induction l with
    | nil => simp
    | cons b r ih => have := byteText_length b; simp at ih ⊢; omega
  omega

theorem labelsText_length (ls : List Bytes) : (labelsText ls).length + 3 * ls.length ≤ 4 * wireSize ls := by
  induction ls with
  | nil => simp [labelsText]
  | cons l r ih =>
    have := labelText_length l
    simp only [labelsText, wireSize, List.map_cons, List.flatten_cons, List.length_append, List.sum_cons, List.length_cons] at ih ⊢
    omega

theorem wireSize_le (ls : List Bytes) (h : ∀ l ∈ ls, 1 ≤ l.length ∧ l.length ≤ 63) : wireSize ls ≤ 64 * ls.length := by
  induction ls with
  | nil => simp [wireSize]
  | cons l r ih =>
    have h1 := h l (by simp)
    have := ih (fun x hx => h x (by simp [hx]))
    simp only [wireSize, List.map_cons, List.sum_cons, List.length_cons] at this ⊢
    omega

/-- C18: the text never exceeds the 1004 bytes (`maxDomainNamePresentationLength`) allocated for it. -/
theorem unpack_bounded (msg : Bytes) (off : Nat) (name : Bytes) (o : Nat) (h : unpackDomainName msg off = .ok (name, o)) :
    name.length ≤ 61 * 4 + 1 + 63 * 4 + 1 + 63 * 4 + 1 + 63 * 4 + 1 := by
  obtain ⟨ls, p, hn, _, hw, rfl⟩ := (unpack_iff msg off name o).1.1 h
  have h1 := labelsText_length ls
  have h2 := wireSize_le ls (nameAt_labels hn)
  simp only [nameText]
  split
  · simp
  · omega

/-! ### Distinct names have distinct texts -/

/-- Reads one byte of a label back from its text. -/
def readByte : Bytes → Option (UInt8 × Bytes)
  | [] => none
  | b :: r =>
    if b ≠ 92 then some (b, r)
    else match r with
      | [] => none
      | c :: r' =>
        if 48 ≤ c.toNat ∧ c.toNat ≤ 57 then
          match r' with
          | d2 :: d3 :: r'' => some (UInt8.ofNat ((c.toNat - 48) * 100 + (d2.toNat - 48) * 10 + (d3.toNat - 48)), r'')
          | _ => none
        else some (c, r')

/-- Shape of the text of a byte. -/
theorem byteText_cases (b : UInt8) :
    (byteText b = [b] ∧ b ≠ 92 ∧ b ≠ 46) ∨ (byteText b = [92, b] ∧ ¬ (48 ≤ b.toNat ∧ b.toNat ≤ 57)) ∨
    (∃ c d e : UInt8, byteText b = [92, c, d, e] ∧ (48 ≤ c.toNat ∧ c.toNat ≤ 57) ∧
      UInt8.ofNat ((c.toNat - 48) * 100 + (d.toNat - 48) * 10 + (e.toNat - 48)) = b) := by
  simp only [byteText]
  split
  · rename_i h
    right; left
    refine ⟨rfl, ?_⟩
    revert h; revert b; apply forall_uint8; decide +kernel
  · rename_i h
    split
    · right; right
      have hb : b.toNat < 256 := UInt8.toNat_lt b
      refine ⟨_, _, _, rfl, ?_, ?_⟩
      · rw [Dec.digit_toNat (by omega)]; omega
      · rw [Dec.digit_toNat (by omega), Dec.digit_toNat (by omega), Dec.digit_toNat (by omega)]
        have : (48 + b.toNat / 100 - 48) * 100 + (48 + b.toNat / 10 % 10 - 48) * 10 + (48 + b.toNat % 10 - 48) = b.toNat := by omega
        rw [this]; simp
    · left
      refine ⟨rfl, ?_, ?_⟩ <;> (intro h'; subst h'; simp [specials] at h)

theorem readByte_text (b : UInt8) (r : Bytes) : readByte (byteText b ++ r) = some (b, r) := by
  rcases byteText_cases b with ⟨h, h1, _⟩ | ⟨h, h1⟩ | ⟨c, d, e, h, h1, h2⟩
  · rw [h]; simp [readByte, h1]
  · rw [h]; simp only [List.cons_append, List.nil_append, readByte]; rw [if_neg (by simp), if_neg h1]
  · rw [h]; simp only [List.cons_append, List.nil_append, readByte]; rw [if_neg (by simp), if_pos h1, h2]

theorem byteText_head (b : UInt8) (r : Bytes) : (byteText b ++ r).head? ≠ some 46 := by
  rcases byteText_cases b with ⟨h, _, h2⟩ | ⟨h, h1⟩ | ⟨c, d, e, h, h1, h2⟩
  · rw [h]; simpa using h2
  · rw [h]; simp
  · rw [h]; simp

theorem labelText_inj (l1 : Bytes) : ∀ (l2 r1 r2 : Bytes), labelText l1 ++ r1 = labelText l2 ++ r2 → l1 = l2 ∧ r1 = r2 := by
  induction l1 with
  | nil =>
    intro l2 r1 r2 h
    cases l2 with
    | nil => simp [labelText] at h; exact ⟨rfl, h⟩
    | cons b l2 =>
      exfalso
      have e : labelText (b :: l2) ++ r2 = byteText b ++ (labelText l2 ++ r2) := by simp [labelText]
      rw [e] at h
      have := byteText_head b (labelText l2 ++ r2)
      rw [← h] at this
      simp [labelText] at this
  | cons a l1 ih =>
    intro l2 r1 r2 h
    have e1 : labelText (a :: l1) ++ r1 = byteText a ++ (labelText l1 ++ r1) := by simp [labelText]
    cases l2 with
    | nil =>
      exfalso
      rw [e1] at h
      have := byteText_head a (labelText l1 ++ r1)
      rw [h] at this
      simp [labelText] at this
    | cons b l2 =>
      have e2 : labelText (b :: l2) ++ r2 = byteText b ++ (labelText l2 ++ r2) := by simp [labelText]
      have h3 := readByte_text a (labelText l1 ++ r1)
      have h4 := readByte_text b (labelText l2 ++ r2)
      rw [← e1, h, e2, h4] at h3
      simp only [Option.some.injEq, Prod.mk.injEq] at h3
      obtain ⟨h5, h6⟩ := ih l2 r1 r2 h3.2.symm
      exact ⟨by rw [h3.1, h5], h6⟩

theorem labelsText_inj (a : List Bytes) : ∀ b, labelsText a = labelsText b → a = b := by
  induction a with
  | nil =>
    intro b h
    cases b with
    | nil => rfl
    | cons x r => exact absurd h.symm labelsText_ne
  | cons x r ih =>
    intro b h
    cases b with
    | nil => exact absurd h labelsText_ne
    | cons y r2 =>
      obtain ⟨h1, h2⟩ := labelText_inj x y (labelsText r) (labelsText r2) (by simpa [labelsText] using h)
      rw [h1, ih r2 h2]

/-- C18: the text determines the name (labels are not empty), so decoding loses nothing. -/
theorem nameText_inj (a b : List Bytes) (ha : ∀ l ∈ a, l ≠ []) (hb : ∀ l ∈ b, l ≠ []) (h : nameText a = nameText b) : a = b := by
  have key : ∀ c : List Bytes, (∀ l ∈ c, l ≠ []) → labelsText c = [46] → c = [] := by
    intro c hc h
    cases c with
    | nil => rfl
    | cons x r =>
      exfalso
      have hx := hc x (by simp)
      cases x with
      | nil => exact hx rfl
      | cons y x =>
        have e : labelsText ((y :: x) :: r) = byteText y ++ (labelText x ++ labelsText r) := by simp [labelsText, labelText]
        rw [e] at h
        have := byteText_head y (labelText x ++ labelsText r)
        rw [h] at this
        simp at this
  simp only [nameText] at h
  split at h
  · rename_i h1
    subst h1
    split at h
    · simp [*]
    · exact (key b hb h.symm).symm
  · split at h
    · rename_i h1 h2
      subst h2
      exact key a ha h
    · exact labelsText_inj a b h

/-- Non-vacuity: `www.a\.b.` through a compression pointer. -/
example : Legal [bs "www", bs "a.b"] := by
  constructor
  · decide
  · decide

example : NameAt ([1, 120, 0] ++ [3, 119, 119, 119] ++ [192, 0]) 3 [bs "www", bs "x"] 1 9 :=
  .label (l := bs "www") (by decide) (by decide) (by decide) (by decide) (by decide)
    (.pointer 0 0 (by decide) (by decide) (by decide) (by decide)
      (.label (l := bs "x") (by decide) (by decide) (by decide) (by decide) (by decide) (.root (by decide))))

end Kindling.Proto.Dns
