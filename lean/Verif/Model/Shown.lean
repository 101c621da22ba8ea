import Verif.Tcp.Metric
import Verif.Export.Json
import Verif.Ctl.Receiver
/-
The text of an event in the debug log: model/kindling_event.go:541-614, called for every event at
receiver/cgoreceiver/cgoreceiver.go:177-179 when the level of the log is debug.

Simplified: the text of the context (`%+v` of a structure) and the text of a float (`%f`), are given.
-/
namespace Kindling.Model.Shown
open Kindling Kindling.Model Kindling.Export.Json Kindling.Text Kindling.Dec Kindling.Tcp.Metric

/-- `nonASCII.ReplaceAllString(s, ".")` (606-614) with the expression `[^ -~]`: each rune that is not between space and tilde
becomes a dot; a byte that begins no rune is a rune of its own (regexp, unicode/utf8). -/
def printable (d : Bytes) : Bytes := (runes d).map fun
  | some c => if 32 ≤ c ∧ c ≤ 126 then UInt8.ofNat c else 46
  | none => 46

/-- `bytesReader` (608-614). -/
def bytesReader (d : Bytes) (n : Nat) : Bytes :=
  if d.length > n then printable (d.take n) ++ bs "(" ++ formatInt (d.length - n : Nat) ++ bs " bytes more)"
  else printable d

/-- `KeyValue` (308-315). -/
structure Attr where
  key : Bytes
  ty : Nat
  val : Bytes

def CHARBUF : Nat := 9
def BYTEBUF : Nat := 10
def FLOAT : Nat := 11
def DOUBLE : Nat := 12

/-- `textUserAttribute` (575-604); a value shorter than its type is a panic (`none`). -/
def textAttr (float : Nat → Bytes) (a : Attr) : Option Bytes :=
  if a.ty = CHARBUF ∨ a.ty = BYTEBUF then some (a.key ++ bs ":<" ++ bytesReader a.val 200 ++ bs ">")
  else if a.ty = INT64 ∨ a.ty = INT32 ∨ a.ty = INT16 ∨ a.ty = INT8 then
    (getInt ("", a.ty, a.val)).map fun n => a.key ++ bs ":" ++ formatInt n
  else if a.ty = UINT64 ∨ a.ty = UINT32 ∨ a.ty = UINT16 ∨ a.ty = UINT8 then
    (getUint ("", a.ty, a.val)).map fun n => a.key ++ bs ":" ++ formatInt n
  else if a.ty = FLOAT then (readLE 4 a.val).map fun n => a.key ++ bs ":" ++ float n
  else if a.ty = 0 then some (bs "none")
  else some (a.key ++ bs ":" ++ a.val)

/-- The loop of `textUserAttributes` (557-573); `block`: something has been written. -/
def attrsGo (float : Nat → Bytes) : Bool → Bytes → List Attr → Option Bytes
  | _, out, [] => some out
  | block, out, a :: r =>
    if a.ty ≠ 0 then match textAttr float a with
      | none => none
      | some t => attrsGo float true (out ++ (if block then bs " " else []) ++ t) r
    else attrsGo float block out r

/-- `textUserAttributes` (557-573). -/
def textAttrs (float : Nat → Bytes) (l : List Attr) : Option Bytes := (attrsGo float false (bs "[") l).map (· ++ bs "]")

/-- `TextKindlingEvent` (541-555). -/
def textEvent (float : Nat → Bytes) (name : Bytes) (category params : Nat) (l : List Attr) (ctx : Bytes) (latency timestamp : Nat) : Option Bytes :=
  (textAttrs float l).map fun t => bs "{" ++ (bs "Name:" ++ name ++ bs " ") ++ (bs "Category:" ++ formatInt category ++ bs " ") ++
    (bs "ParamsNumber:" ++ formatInt params ++ bs " ") ++ (bs "UserAttributes:" ++ t ++ bs " ") ++ (bs "Ctx:" ++ ctx ++ bs " ") ++
    (bs "Latency:" ++ formatInt latency ++ bs " ") ++ (bs "Timestamp:" ++ formatInt timestamp) ++ bs "}"

/-- `sendToNextConsumer` (cgoreceiver.go:176-193), as far as the log: what follows gets the event, unless the text panics. -/
def send (debug : Bool) (text : Option Bytes) : Res (Option Bytes) :=
  if debug then match text with
    | none => .panic
    | some t => .ok (some t)
  else .ok none

/-! ### Specification -/

/-- The bytes of a number of this type. -/
def width (ty : Nat) : Option Nat :=
  if ty = INT8 ∨ ty = UINT8 then some 1 else if ty = INT16 ∨ ty = UINT16 then some 2
  else if ty = INT32 ∨ ty = UINT32 ∨ ty = FLOAT then some 4 else if ty = INT64 ∨ ty = UINT64 then some 8 else none

/-- Can be shown in a line of text. -/
def Plain (d : Bytes) : Prop := ∀ b ∈ d, 32 ≤ b.toNat ∧ b.toNat ≤ 126

/-! ### C123 -/

theorem printable_plain (d : Bytes) : Plain (printable d) := by
  intro b hb
  obtain ⟨o, -, rfl⟩ := List.mem_map.1 hb
  cases o with
  | none => decide
  | some c =>
    simp only
    split
    · next h =>
      rw [UInt8.toNat_ofNat']
      have : c % 2 ^ 8 = c := Nat.mod_eq_of_lt (by omega)
      omega
    · decide

theorem runes_cons_plain {b : UInt8} (hb : 32 ≤ b.toNat ∧ b.toNat ≤ 126) (d : Bytes) : runes (b :: d) = some b.toNat :: runes d := by
  have hu : utf8 b.toNat = [b] := by
    have : b.toNat < 128 := by omega
    simp [utf8, this]
  have hr : rune (b :: d) = some (b.toNat, d) := by
    have := rune_utf8 (c := b.toNat) (.inl (by omega)) d
    rwa [hu] at this
  rw [runes]
  split
  · rename_i hn; rw [hr] at hn; cases hn
  · rename_i c' r' hn
    rw [hr] at hn; cases hn; rfl

/-- C123: text that can be shown is shown as it is. -/
theorem plain_kept {d : Bytes} (h : Plain d) : printable d = d := by
  induction d with
  | nil => rw [printable, runes]; rfl
  | cons b r ih =>
    have hb := h b (by simp)
    rw [printable, runes_cons_plain hb, List.map_cons]
    have := ih fun x hx => h x (by simp [hx])
    rw [printable] at this
    rw [this]
    simp [hb]

theorem runes_length (d : Bytes) : (runes d).length ≤ d.length := by
  fun_induction runes d with
  | case1 => simp
  | case2 a r h ih => simpa using ih
  | case3 a r c r' h ih =>
    have := rune_shorter h
    simp only [List.length_cons] at this ⊢
    omega

theorem plain_append {a b : Bytes} (ha : Plain a) (hb : Plain b) : Plain (a ++ b) := by
  intro x hx
  rcases List.mem_append.1 hx with h | h
  · exact ha x h
  · exact hb x h

theorem digits_plain (n : Nat) : Plain (formatInt (n : Int)) := by
  intro b hb
  have he : formatInt (n : Int) = digits n := by simp [formatInt]
  rw [he] at hb
  have := digits_all n b hb
  omega

/-- C123: whatever the payload, the text can be shown in a line: no control characters, no bytes beyond ASCII. -/
theorem payload_plain (d : Bytes) (n : Nat) : Plain (bytesReader d n) := by
  unfold bytesReader
  split
  · refine plain_append (plain_append (plain_append (printable_plain _) ?_) (digits_plain _)) ?_
    · unfold Plain; decide
    · unfold Plain; decide
  · exact printable_plain _

/-- C123: of a long payload at most `n` characters are shown, and how many bytes are left out. -/
theorem payload_cut {d : Bytes} {n : Nat} (h : n < d.length) :
    ∃ t, t.length ≤ n ∧ bytesReader d n = t ++ (bs "(" ++ formatInt (d.length - n : Nat) ++ bs " bytes more)") ∧ (Plain d → t = d.take n) := by
  refine ⟨printable (d.take n), ?_, by simp [bytesReader, h], fun hp => plain_kept fun b hb => hp b (List.mem_of_mem_take hb)⟩
  have := runes_length (d.take n)
  simp only [printable, List.length_map, List.length_take] at this ⊢
  omega

/-- C123: a short payload of plain text is shown as it is. -/
theorem payload_kept {d : Bytes} {n : Nat} (h : d.length ≤ n) (hp : Plain d) : bytesReader d n = d := by
  rw [bytesReader, if_neg (by omega), plain_kept hp]

theorem readLE_leBytes {w n : Nat} (h : n < 256 ^ w) : readLE w (leBytes w n) = some n := by
  have hl := leBytes_length w n
  rw [readLE, if_pos (by omega), List.take_of_length_le (by omega), leValue_leBytes w n h]

/-- C123: an unsigned number is shown in decimal, as the probe wrote it. -/
theorem unsigned_shown (float : Nat → Bytes) (key : Bytes) {ty w n : Nat}
    (ht : (ty, w) ∈ [(UINT8, 1), (UINT16, 2), (UINT32, 4), (UINT64, 8)]) (h : n < 256 ^ w) :
    textAttr float ⟨key, ty, leBytes w n⟩ = some (key ++ bs ":" ++ formatInt n) := by
  simp only [List.mem_cons, Prod.mk.injEq, List.not_mem_nil, or_false] at ht
  rcases ht with ⟨rfl, rfl⟩ | ⟨rfl, rfl⟩ | ⟨rfl, rfl⟩ | ⟨rfl, rfl⟩ <;>
    simp [textAttr, getUint, readLE_leBytes h, INT8, INT16, INT32, INT64, UINT8, UINT16, UINT32, UINT64, CHARBUF, BYTEBUF]

theorem signed_twos {w : Nat} (hw : 0 < w) {i : Int} (h1 : -(256 ^ w / 2 : Nat) ≤ i) (h2 : i < (256 ^ w / 2 : Nat)) :
    signed w ((i % (256 ^ w : Nat)).toNat) = i := by
  have he : 2 * (256 ^ w / 2) = 256 ^ w := by
    obtain ⟨v, rfl⟩ : ∃ v, w = v + 1 := ⟨w - 1, by omega⟩
    rw [Nat.pow_succ]; omega
  unfold signed
  generalize 256 ^ w = M at *
  by_cases hi : 0 ≤ i
  · have : i % (M : Int) = i := Int.emod_eq_of_lt hi (by omega)
    rw [this]
    split <;> omega
  · have : i % (M : Int) = i + M := by
      rw [← Int.add_emod_right]
      exact Int.emod_eq_of_lt (by omega) (by omega)
    rw [this]
    split <;> omega

/-- C123: a signed number is shown in decimal with its sign, as the probe wrote it (two's complement). -/
theorem signed_shown (float : Nat → Bytes) (key : Bytes) {ty w : Nat} {i : Int}
    (ht : (ty, w) ∈ [(INT8, 1), (INT16, 2), (INT32, 4), (INT64, 8)]) (h1 : -(256 ^ w / 2 : Nat) ≤ i) (h2 : i < (256 ^ w / 2 : Nat)) :
    textAttr float ⟨key, ty, leBytes w (i % (256 ^ w : Nat)).toNat⟩ = some (key ++ bs ":" ++ formatInt i) := by
  have hpos : 0 < 256 ^ w := Nat.pow_pos (by omega)
  have hr := readLE_leBytes (w := w) (n := (i % (256 ^ w : Nat)).toNat) (by
    have := Int.emod_lt_of_pos i (b := ((256 ^ w : Nat) : Int)) (by omega)
    have := Int.emod_nonneg i (b := ((256 ^ w : Nat) : Int)) (by omega)
    omega)
  have hs : 0 < w → signed w ((i % (256 ^ w : Nat)).toNat) = i := fun hw => signed_twos hw h1 h2
  generalize (i % (256 ^ w : Nat)).toNat = m at *
  simp only [List.mem_cons, Prod.mk.injEq, List.not_mem_nil, or_false] at ht
  rcases ht with ⟨rfl, rfl⟩ | ⟨rfl, rfl⟩ | ⟨rfl, rfl⟩ | ⟨rfl, rfl⟩ <;>
    simp [textAttr, getInt, hr, hs, INT8, INT16, INT32, INT64, CHARBUF, BYTEBUF]

theorem readLE_none {w : Nat} {b : Bytes} : readLE w b = none ↔ b.length < w := by
  unfold readLE
  split <;> simp <;> omega

theorem readLE_ne {w : Nat} {b : Bytes} : (∀ n, ¬ readLE w b = some n) ↔ b.length < w := by
  rw [← readLE_none]
  cases readLE w b <;> simp

/-- C123, finding: the text of an attribute panics exactly if its value is shorter than its type. -/
theorem attr_panics_iff (float : Nat → Bytes) (a : Attr) : textAttr float a = none ↔ ∃ w, width a.ty = some w ∧ a.val.length < w := by
  by_cases h : a.ty < 12
  · have : a.ty = 0 ∨ a.ty = 1 ∨ a.ty = 2 ∨ a.ty = 3 ∨ a.ty = 4 ∨ a.ty = 5 ∨ a.ty = 6 ∨ a.ty = 7 ∨ a.ty = 8 ∨ a.ty = 9 ∨ a.ty = 10 ∨ a.ty = 11 := by
      omega
    rcases this with h | h | h | h | h | h | h | h | h | h | h | h <;>
      simp [textAttr, width, getInt, getUint, h, INT8, INT16, INT32, INT64, UINT8, UINT16, UINT32, UINT64, CHARBUF, BYTEBUF, FLOAT, readLE_none, readLE_ne]
  · have h1 : ∀ n, n < 12 → a.ty ≠ n := by omega
    simp [textAttr, width, h1, INT8, INT16, INT32, INT64, UINT8, UINT16, UINT32, UINT64, CHARBUF, BYTEBUF, FLOAT]

/-- The texts that are put together: those of the attributes with a type. -/
def shown (float : Nat → Bytes) (l : List Attr) : Option (List Bytes) := mapOpt (textAttr float) (l.filter (fun a => decide (a.ty ≠ 0)))

/-- Joined by spaces. -/
def joined : List Bytes → Bytes
  | [] => []
  | [t] => t
  | t :: r => t ++ bs " " ++ joined r

theorem attrsGo_eq (float : Nat → Bytes) (l : List Attr) : ∀ block out, attrsGo float block out l =
    (shown float l).map fun ts => out ++ (if ts = [] then [] else (if block then bs " " else []) ++ joined ts) := by
  induction l with
  | nil => intro block out; simp [attrsGo, shown, mapOpt]
  | cons a r ih =>
    intro block out
    by_cases h : a.ty = 0
    · simp [attrsGo, h, ih, shown]
    · simp only [attrsGo, ne_eq, h, not_false_eq_true, if_true]
      have hf : (a :: r).filter (fun a => decide (a.ty ≠ 0)) = a :: r.filter (fun a => decide (a.ty ≠ 0)) := by simp [h]
      simp only [shown, hf, mapOpt]
      cases ht : textAttr float a with
      | none => simp
      | some t =>
        simp only [ih]
        simp only [shown]
        cases hm : mapOpt (textAttr float) (r.filter (fun a => decide (a.ty ≠ 0))) with
        | none => simp
        | some ts =>
          cases ts with
          | nil => simp [joined]
          | cons u v => simp [joined]

/-- C123: the attributes that have a type are shown in order, once each, between brackets and separated by spaces; nothing else
is. -/
theorem attrs_shown (float : Nat → Bytes) (l : List Attr) : textAttrs float l = (shown float l).map fun ts => bs "[" ++ joined ts ++ bs "]" := by
  rw [textAttrs, attrsGo_eq]
  cases shown float l with
  | none => rfl
  | some ts => cases ts <;> simp [joined]

theorem mapOpt_none {α β : Type} {f : α → Option β} {l : List α} : mapOpt f l = none ↔ ∃ a ∈ l, f a = none := by
  induction l with
  | nil => simp [mapOpt]
  | cons a r ih =>
    simp only [mapOpt, List.mem_cons, exists_eq_or_imp]
    cases hf : f a with
    | none => simp
    | some y =>
      cases hm : mapOpt f r with
      | none => simpa [hm] using ih
      | some ys => simpa [hm] using ih

/-- C123, finding: with the log at debug level, an event with a value shorter than its type crashes the collector, and no other
event does. -/
theorem debug_panics_iff (float : Nat → Bytes) (name : Bytes) (category params : Nat) (l : List Attr) (ctx : Bytes) (latency timestamp : Nat) :
    send true (textEvent float name category params l ctx latency timestamp) = .panic ↔ ∃ a ∈ l, ∃ w, width a.ty = some w ∧ a.val.length < w := by
  have h1 : textEvent float name category params l ctx latency timestamp = none ↔ shown float l = none := by
    simp only [textEvent, attrs_shown, Option.map_map, Option.map_eq_none_iff]
  have h2 : send true (textEvent float name category params l ctx latency timestamp) = .panic ↔
      textEvent float name category params l ctx latency timestamp = none := by
    cases textEvent float name category params l ctx latency timestamp <;> simp [send]
  rw [h2, h1, shown, mapOpt_none]
  constructor
  · rintro ⟨a, ha, h⟩
    exact ⟨a, (List.mem_filter.1 ha).1, (attr_panics_iff float a).1 h⟩
  · rintro ⟨a, ha, w, hw, h⟩
    refine ⟨a, List.mem_filter.2 ⟨ha, ?_⟩, (attr_panics_iff float a).2 ⟨w, hw, h⟩⟩
    have : a.ty ≠ 0 := fun h0 => by
      rw [h0] at hw
      simp [width, INT8, INT16, INT32, INT64, UINT8, UINT16, UINT32, UINT64, FLOAT] at hw
    simpa using this

/-- C123: at the other levels no text is made and nothing can panic. -/
theorem no_text (t : Option Bytes) : send false t = .ok none := rfl

/-- C123: of an event of the probe (C85) the text shows the parameters in use, and none of the rest of the array. -/
theorem converted_shown {R : Type} (float : Nat → Bytes) (key : String → Bytes) (c : Ctl.Receiver.CEvent Nat R) (hlen : c.attrs.length = 16)
    (hn : c.paramsNumber ≤ 16) : ∃ e, Ctl.Receiver.convertEvent 0 c = some e ∧
      textAttrs float (e.attrs.map fun a => ⟨key a.1, a.2.1, a.2.2⟩) =
        textAttrs float ((c.attrs.take c.paramsNumber).map fun a => ⟨key a.1, a.2.2.2, a.2.1.take a.2.2.1⟩) := by
  have h := Ctl.Receiver.copyGo_eq c.attrs c.paramsNumber 0 (List.replicate 16 ("", 0, [])) (by omega) (by simp [hlen])
  refine ⟨_, by rw [Ctl.Receiver.convertEvent, h], ?_⟩
  have hz : ∀ n, ((List.replicate n (("", 0, []) : String × Nat × Bytes)).map fun a => (⟨key a.1, a.2.1, a.2.2⟩ : Attr)).filter (fun a => decide (a.ty ≠ 0)) = [] := by
    intro n
    rw [List.filter_eq_nil_iff]
    intro a ha
    obtain ⟨x, hx, rfl⟩ := List.mem_map.1 ha
    rw [List.mem_replicate] at hx
    simp [hx.2]
  rw [attrs_shown, attrs_shown]
  congr 1
  simp only [shown, List.take_zero, List.nil_append, List.drop_zero, List.map_append, List.filter_append, List.drop_replicate, hz, List.append_nil, List.map_map]
  rfl

theorem plain_app {a b : Bytes} : Plain (a ++ b) ↔ Plain a ∧ Plain b :=
  ⟨fun h => ⟨fun x hx => h x (List.mem_append_left _ hx), fun x hx => h x (List.mem_append_right _ hx)⟩, fun h => plain_append h.1 h.2⟩

/-- C123, finding: a double is shown as its eight bytes, so that its text can be shown in a line only if these happen to be
printable. -/
theorem double_raw (float : Nat → Bytes) (key v : Bytes) : ∃ t, textAttr float ⟨key, DOUBLE, v⟩ = some t ∧ (Plain t ↔ Plain key ∧ Plain v) := by
  refine ⟨key ++ bs ":" ++ v, rfl, ?_⟩
  have : Plain (bs ":") := by unfold Plain; decide
  simp [plain_app, this]

/-- C123: the text of a payload can be shown in a line, whatever the payload, if its name can. -/
theorem payload_attr (float : Nat → Bytes) (key v : Bytes) {ty : Nat} (ht : ty = CHARBUF ∨ ty = BYTEBUF) :
    ∃ t, textAttr float ⟨key, ty, v⟩ = some t ∧ (Plain t ↔ Plain key) := by
  refine ⟨key ++ bs ":<" ++ bytesReader v 200 ++ bs ">", by simp [textAttr, ht], ?_⟩
  have h1 : Plain (bs ":<") := by unfold Plain; decide
  have h2 : Plain (bs ">") := by unfold Plain; decide
  simp [plain_app, h1, h2, payload_plain]

example : textAttr (fun _ => []) ⟨bs "res", UINT16, leBytes 2 515⟩ = some (bs "res" ++ bs ":" ++ formatInt 515) :=
  unsigned_shown _ _ (by decide) (by decide)
example : textAttr (fun _ => []) ⟨bs "res", INT16, [0xfe, 0xff]⟩ = some (bs "res:-2") := by decide +kernel
example : ∃ w, width INT64 = some w ∧ ([1, 2] : Bytes).length < w := ⟨8, rfl, by decide⟩
example : textAttrs (fun _ => []) [⟨bs "fd", UINT8, [7]⟩, ⟨[], 0, []⟩, ⟨bs "n", INT8, [0xff]⟩] = some (bs "[fd:7 n:-1]") := by decide +kernel

end Kindling.Model.Shown
