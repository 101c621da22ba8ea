import Verif.Conn.Decode
/-
The scanner the decoder keeps from message to message.  metadata/conntracker/internal/attribute_scanner.go:30-214,
decoding.go:53-174.  `Conn/Decode.lean` decodes each message from its bytes; here are the frames that are never made anew, the level of
nesting, and what is left in them by earlier messages.
-/
namespace Kindling.Conn.Scanner

open Kindling.Conn.Lookup
open Kindling.Conn.Decode

/-- `NestedFrame` (attribute_scanner.go:39-49) with the attribute it holds (`netlink.Attribute`: Length, Type, Data).  The bytes are
slices of the receive buffer, which is not written to before `Done` (decoding.go:88). -/
structure Frame where
  len : Nat
  typ : Nat
  data : Bytes
  b : Bytes
  i : Nat
  err : Bool

/-- `AttributeScanner` (attribute_scanner.go:30-36).  The frames are pointers to structures of their own (:53-62), so a frame is known by
its place. -/
structure Scanner where
  level : Nat
  frames : List Frame

/-- How a call ends: it panics, or (never, as is proved) it goes round its loop more often than there are bytes. -/
inductive Out (α : Type)
  | ok (a : α)
  | panic
  | stuck

/-- `NewAttributeScanner` (attribute_scanner.go:52-63). -/
def new : Scanner := ⟨0, List.replicate 3 ⟨0, 0, [], [], 0, false⟩⟩

/-- `frame` (attribute_scanner.go:151-153); `none` is an index out of range. -/
def Scanner.frame (s : Scanner) : Option Frame := s.frames[s.level]?

/-- An assignment to fields of the current frame. -/
def Scanner.put (s : Scanner) (f : Frame) : Scanner := { s with frames := s.frames.set s.level f }

/-- `unmarshal` (attribute_scanner.go:179-206) of the bytes from the iterator on; `false` is an error.  An attribute that is refused has
already left its length and type in the frame, and the data of the one before it. -/
def unmarshal (f : Frame) : Frame × Bool := match f.b.drop f.i with
  | l0 :: l1 :: t0 :: t1 :: r =>
    let f1 := { f with len := l0.toNat + 256 * l1.toNat, typ := t0.toNat + 256 * t1.toNat }
    if f1.len > r.length + 4 then (f1, false)
    else if f1.len = 0 then ({ f1 with data := [] }, true)
    else if f1.len < 4 then (f1, false)
    else ({ f1 with data := r.take (f1.len - 4) }, true)
  | _ => (f, false)

/-- `Next` (attribute_scanner.go:67-94). -/
def advance (s : Scanner) : Out (Scanner × Bool) := match s.frame with
  | none => .panic
  | some f =>
    if f.err then .ok (s, false)
    else if f.i ≥ f.b.length then .ok (s, false)
    else match unmarshal f with
      | (f1, false) => .ok (s.put { f1 with err := true }, false)
      | (f1, true) => .ok (s.put { f1 with i := f1.i + (if f1.len < 4 then 4 else align f1.len) }, true)

/-- `push` (attribute_scanner.go:156-171).  The room for a further frame is looked for before the level is raised. -/
def push (s : Scanner) : Option Scanner := match s.frame with
  | none => none
  | some prev =>
    let fs := if s.frames.length ≤ s.level then s.frames ++ [⟨0, 0, [], [], 0, false⟩] else s.frames
    let s1 : Scanner := ⟨s.level + 1, fs⟩
    match s1.frame with
    | none => none
    | some cur => some (s1.put { cur with b := prev.data, i := 0, err := false })

/-- `Nested` (attribute_scanner.go:113-124): a new frame, the function, the old frame, and the error in it. -/
def nested {σ : Type} (fn : Scanner → σ → Out (Scanner × σ × Bool)) (s : Scanner) (x : σ) : Out (Scanner × σ) := match push s with
  | none => .panic
  | some s1 => match fn s1 x with
    | .panic => .panic
    | .stuck => .stuck
    | .ok (s2, y, e) =>
      let s3 : Scanner := { s2 with level := s2.level - 1 }
      match s3.frame with
      | none => .panic
      | some f => .ok (s3.put { f with err := e }, y)

/-- The loops of decoding.go (97-110, 116-129, 135-148, 156-172): `h` is the `switch` on the type and says if it counted the attribute. -/
def loop {σ : Type} (h : Scanner → σ → Out (Scanner × σ × Bool)) : Nat → Nat → Scanner → σ → Out (Scanner × σ)
  | 0, _, _, _ => .stuck
  | _ + 1, 0, s, x => .ok (s, x)
  | fuel + 1, todo + 1, s, x => match advance s with
    | .panic => .panic
    | .stuck => .stuck
    | .ok (s1, false) => .ok (s1, x)
    | .ok (s1, true) => match h s1 x with
      | .panic => .panic
      | .stuck => .stuck
      | .ok (s2, y, true) => loop h fuel todo s2 y
      | .ok (s2, y, false) => loop h fuel (todo + 1) s2 y

/-- The bytes the current frame has left. -/
def Scanner.left (s : Scanner) : Nat := match s.frame with
  | none => 0
  | some f => f.b.length - f.i

/-- A loop and `return d.scanner.Err()` (attribute_scanner.go:104-106). -/
def run {σ : Type} (h : Scanner → σ → Out (Scanner × σ × Bool)) (todo : Nat) (s : Scanner) (x : σ) : Out (Scanner × σ × Bool) :=
  match loop h (s.left + 1) todo s x with
  | .panic => .panic
  | .stuck => .stuck
  | .ok (s1, y) => match s1.frame with
    | none => .panic
    | some f => .ok (s1, y, f.err)

/-- `Type` and `Bytes` (attribute_scanner.go:98-101, 109-111). -/
def onAttr {σ : Type} (g : Nat → Bytes → σ → Option (Res σ)) (s : Scanner) (x : σ) : Out (Scanner × σ × Bool) := match s.frame with
  | none => .panic
  | some f => match g (f.typ % 16384) f.data x with
    | none => .ok (s, x, false)
    | some (.ok y) => .ok (s, y, true)
    | some .err => .panic
    | some .panic => .panic

/-- `unmarshalTupleIP` (decoding.go:134-151).  `Decode.fIP` is the body of its `switch`, which cannot fail. -/
def unmarshalIP (s : Scanner) (t : Tuple) : Out (Scanner × Tuple × Bool) := run (onAttr fIP) 2 s t

/-- `unmarshalProto` (decoding.go:153-174): into a structure of its own.  `Decode.fProto` is the body of its `switch`, which panics on short
data and has no errors. -/
def unmarshalProto (s : Scanner) (t : Tuple) : Out (Scanner × Tuple × Bool) := match run (onAttr fProto) 3 s noProto with
  | .panic => .panic
  | .stuck => .stuck
  | .ok (s1, p, e) => .ok (s1, { t with proto := some p }, e)

/-- The `switch` of `unmarshalTuple` (decoding.go:117-128). -/
def hTuple (s : Scanner) (t : Tuple) : Out (Scanner × Tuple × Bool) := match s.frame with
  | none => .panic
  | some f =>
    if f.typ % 16384 = 1 then match nested unmarshalIP s t with
      | .panic => .panic
      | .stuck => .stuck
      | .ok (s1, y) => .ok (s1, y, true)
    else if f.typ % 16384 = 2 then match nested unmarshalProto s t with
      | .panic => .panic
      | .stuck => .stuck
      | .ok (s1, y) => .ok (s1, y, true)
    else .ok (s, t, false)

/-- `unmarshalTuple` (decoding.go:115-131). -/
def unmarshalTuple (s : Scanner) (t : Tuple) : Out (Scanner × Tuple × Bool) := run hTuple 2 s t

/-- The `switch` of `unmarshalCon` (decoding.go:98-109). -/
def hCon (s : Scanner) (c : Pair) : Out (Scanner × Pair × Bool) := match s.frame with
  | none => .panic
  | some f =>
    if f.typ % 16384 = 1 then match nested unmarshalTuple s c.origin with
      | .panic => .panic
      | .stuck => .stuck
      | .ok (s1, y) => .ok (s1, { c with origin := y }, true)
    else if f.typ % 16384 = 2 then match nested unmarshalTuple s c.reply with
      | .panic => .panic
      | .stuck => .stuck
      | .ok (s1, y) => .ok (s1, { c with reply := y }, true)
    else .ok (s, c, false)

/-- `unmarshalCon` (decoding.go:93-113). -/
def unmarshalCon (s : Scanner) : Out (Scanner × Pair × Bool) := run hCon 2 s ⟨noTuple, noTuple⟩

/-- A frame as `ResetTo` leaves it: its attribute stays. -/
def Frame.cleared (f : Frame) : Frame := { f with b := [], i := 0, err := false }

/-- `ResetTo` (attribute_scanner.go:127-148); `some false` is an error, `none` a panic. -/
def resetTo (s : Scanner) (data : Bytes) : Option (Scanner × Bool) :=
  let s1 : Scanner := ⟨0, s.frames.map Frame.cleared⟩
  match data with
  | a :: b :: _ =>
    if data.length ≤ messageOffset a b then some (s1, false)
    else match s1.frame with
      | none => none
      | some f => some (s1.put { f with b := data.drop (messageOffset a b) }, true)
  | _ => some (s1, false)

/-- One message of `DecodeAndReleaseEvent` (decoding.go:75-85): the scanner afterwards, and the connection if there is one. -/
def decodeOne (s : Scanner) (data : Bytes) : Out (Scanner × Option Con) := match resetTo s data with
  | none => .panic
  | some (s1, false) => .ok (s1, none)
  | some (s1, true) => match unmarshalCon s1 with
    | .panic => .panic
    | .stuck => .stuck
    | .ok (s2, _, true) => .ok (s2, none)
    | .ok (s2, p, false) => .ok (s2, some ⟨some p.origin, some p.reply⟩)

/-- `DecodeAndReleaseEvent` (decoding.go:71-91) with the scanner of the decoder. -/
def decodeEvent (s : Scanner) : List Bytes → Out (Scanner × List Con)
  | [] => .ok (s, [])
  | m :: r => match decodeOne s m with
    | .panic => .panic
    | .stuck => .stuck
    | .ok (s1, c) => match decodeEvent s1 r with
      | .panic => .panic
      | .stuck => .stuck
      | .ok (s2, cs) => .ok (s2, c.toList ++ cs)

/-- One decoder and the events that come to it, one after the other (conntracker.go:113, 221, 267: one decoder for the dump and for all that follows). -/
def decodeEvents (s : Scanner) : List (List Bytes) → Out (Scanner × List (List Con))
  | [] => .ok (s, [])
  | e :: r => match decodeEvent s e with
    | .panic => .panic
    | .stuck => .stuck
    | .ok (s1, cs) => match decodeEvents s1 r with
      | .panic => .panic
      | .stuck => .stuck
      | .ok (s2, css) => .ok (s2, cs :: css)

/-! ### The scanner with its old frames is `Decode` -/

/-- What a call at level `l` leaves alone: the level, the number of frames, and the frames below. -/
def Same (l : Nat) (s s' : Scanner) : Prop :=
  s'.level = s.level ∧ s'.frames.length = s.frames.length ∧ ∀ j, j < l → s'.frames[j]? = s.frames[j]?

theorem Same.refl (l : Nat) (s : Scanner) : Same l s s := ⟨rfl, rfl, fun _ _ => rfl⟩

theorem Same.trans {l : Nat} {a b c : Scanner} (h : Same l a b) (g : Same l b c) : Same l a c :=
  ⟨g.1.trans h.1, g.2.1.trans h.2.1, fun j hj => (g.2.2 j hj).trans (h.2.2 j hj)⟩

theorem Same.mono {l m : Nat} {a b : Scanner} (h : Same m a b) (hl : l ≤ m) : Same l a b :=
  ⟨h.1, h.2.1, fun j hj => h.2.2 j (by omega)⟩

theorem same_put (s : Scanner) (f : Frame) : Same s.level s (s.put f) := by
  refine ⟨rfl, by simp [Scanner.put], fun j hj => ?_⟩
  simp only [Scanner.put]
  rw [List.getElem?_set_ne (by omega)]

theorem frame_put {s : Scanner} {f0 : Frame} (h : s.frame = some f0) (f : Frame) : (s.put f).frame = some f := by
  have hl : s.level < s.frames.length := by
    unfold Scanner.frame at h
    exact (List.getElem?_eq_some_iff.1 h).1
  simp only [Scanner.frame, Scanner.put]
  rw [List.getElem?_set_self hl]

/-- How `unmarshal` sees the bytes. -/
theorem unmarshal_next (f : Frame) (hi : f.i < f.b.length) : match next (f.b.drop f.i) with
    | .done => False
    | .bad => (unmarshal f).2 = false ∧ (unmarshal f).1.b = f.b
    | .attr ty data rest => (unmarshal f).2 = true ∧ (unmarshal f).1.b = f.b ∧ (unmarshal f).1.i = f.i ∧ (unmarshal f).1.err = f.err ∧
        (unmarshal f).1.typ % 16384 = ty ∧ (unmarshal f).1.data = data ∧
        f.b.drop (f.i + (if (unmarshal f).1.len < 4 then 4 else align (unmarshal f).1.len)) = rest := by
  unfold next unmarshal
  cases hd : f.b.drop f.i with
  | nil =>
    have := congrArg List.length hd
    simp only [List.length_drop, List.length_nil] at this
    omega
  | cons l0 r0 => cases r0 with
    | nil => simp
    | cons l1 r1 => cases r1 with
      | nil => simp
      | cons t0 r2 => cases r2 with
        | nil => simp
        | cons t1 r =>
          have hdr : ∀ k, f.b.drop (f.i + (k + 4)) = r.drop k := by
            intro k
            rw [← List.drop_drop, hd]
            rfl
          simp only
          by_cases h1 : l0.toNat + 256 * l1.toNat > r.length + 4
          · simp [h1]
          · simp only [if_neg h1]
            by_cases h2 : l0.toNat + 256 * l1.toNat = 0
            · simp only [if_pos h2]
              refine ⟨trivial, trivial, trivial, trivial, trivial, trivial, ?_⟩
              rw [if_pos (by omega)]
              exact hdr 0
            · simp only [if_neg h2]
              by_cases h3 : l0.toNat + 256 * l1.toNat < 4
              · simp [h3]
              · simp only [if_neg h3]
                refine ⟨trivial, trivial, trivial, trivial, trivial, trivial, ?_⟩
                have ha : align (l0.toNat + 256 * l1.toNat) = (align (l0.toNat + 256 * l1.toNat) - 4) + 4 := by
                  have := le_align (l0.toNat + 256 * l1.toNat)
                  omega
                rw [ha]
                exact hdr _

/-- What is left to read in the frame at hand, which has no error. -/
def At (s : Scanner) (rem : Bytes) : Prop := ∃ f, s.frame = some f ∧ f.err = false ∧ f.b.drop f.i = rem

theorem advance_next {s : Scanner} {rem : Bytes} (h : At s rem) : match next rem with
    | .done => advance s = .ok (s, false)
    | .bad => ∃ s', advance s = .ok (s', false) ∧ Same s.level s s' ∧ ∃ f, s'.frame = some f ∧ f.err = true
    | .attr ty data rest => ∃ s', advance s = .ok (s', true) ∧ Same s.level s s' ∧ At s' rest ∧
        ∃ f, s'.frame = some f ∧ f.typ % 16384 = ty ∧ f.data = data := by
  obtain ⟨f, hf, he, hr⟩ := h
  unfold advance
  simp only [hf, he, Bool.false_eq_true, if_false]
  by_cases hi : f.i ≥ f.b.length
  · have : rem = [] := by rw [← hr]; exact List.drop_eq_nil_of_le hi
    subst this
    simp only [next, if_pos hi]
  · simp only [if_neg hi]
    have hu := unmarshal_next f (by omega)
    rw [hr] at hu
    cases hn : next rem with
    | done => rw [hn] at hu; exact hu.elim
    | bad =>
      rw [hn] at hu
      simp only at hu ⊢
      rw [show unmarshal f = ((unmarshal f).1, false) from Prod.ext rfl hu.1]
      exact ⟨_, rfl, same_put _ _, _, frame_put hf _, rfl⟩
    | attr ty data rest =>
      rw [hn] at hu
      simp only at hu ⊢
      obtain ⟨hu1, hb, hi', he', hty, hda, hre⟩ := hu
      rw [show unmarshal f = ((unmarshal f).1, true) from Prod.ext rfl hu1]
      refine ⟨_, rfl, same_put _ _, ⟨_, frame_put hf _, ?_, ?_⟩, _, frame_put hf _, hty, hda⟩
      · exact he'.trans he
      · simp only [hb, hi']
        exact hre

theorem advance_err {s : Scanner} {f : Frame} (h : s.frame = some f) (he : f.err = true) : advance s = .ok (s, false) := by
  unfold advance
  simp only [h, he, if_true]

/-- What the loop of a level has to do with `scan`: with `g` for the `switch`. -/
def Does {σ : Type} (l n : Nat) (h : Scanner → σ → Out (Scanner × σ × Bool)) (g : Nat → Bytes → σ → Option (Res σ)) : Prop :=
  ∀ (s : Scanner) (f : Frame) (rem : Bytes) (x : σ), s.level = l → s.frames.length = n → s.frame = some f → f.err = false →
    f.b.drop f.i = rem → match g (f.typ % 16384) f.data x with
      | none => h s x = .ok (s, x, false)
      | some (.ok y) => ∃ s', h s x = .ok (s', y, true) ∧ Same l s s' ∧ At s' rem
      | some .err => ∃ s' y, h s x = .ok (s', y, true) ∧ Same l s s' ∧ ∃ f', s'.frame = some f' ∧ f'.err = true
      | some .panic => h s x = .panic

/-- A call at level `l` is the decoding of the bytes of its frame. -/
def Reads {σ : Type} (l n : Nat) (u : Scanner → σ → Out (Scanner × σ × Bool)) (d : Bytes → σ → Res σ) : Prop :=
  ∀ (s : Scanner) (rem : Bytes) (x : σ), s.level = l → s.frames.length = n → At s rem → match d rem x with
    | .ok y => ∃ s', u s x = .ok (s', y, false) ∧ Same l s s'
    | .err => ∃ s' y, u s x = .ok (s', y, true) ∧ Same l s s'
    | .panic => u s x = .panic

theorem scan_done {σ : Type} {g : Nat → Bytes → σ → Option (Res σ)} {todo : Nat} {rem : Bytes} {x : σ} (h : next rem = .done) :
    scan g (todo + 1) rem x = .ok x := by
  rw [scan]; split <;> simp_all

theorem scan_bad {σ : Type} {g : Nat → Bytes → σ → Option (Res σ)} {todo : Nat} {rem : Bytes} {x : σ} (h : next rem = .bad) :
    scan g (todo + 1) rem x = .err := by
  rw [scan]; split <;> simp_all

theorem scan_attr {σ : Type} {g : Nat → Bytes → σ → Option (Res σ)} {todo : Nat} {rem : Bytes} {x : σ} {ty : Nat} {data rest : Bytes}
    (h : next rem = .attr ty data rest) : scan g (todo + 1) rem x = (match g ty data x with
      | none => scan g (todo + 1) rest x
      | some (.ok y) => scan g todo rest y
      | some .err => .err
      | some .panic => .panic) := by
  rw [scan]; split
  · next h' => rw [h] at h'; cases h'
  · next h' => rw [h] at h'; cases h'
  · next h' => rw [h] at h'; cases h'; rfl

theorem loop_scan {σ : Type} {l n : Nat} {h : Scanner → σ → Out (Scanner × σ × Bool)} {g : Nat → Bytes → σ → Option (Res σ)}
    (hd : Does l n h g) : ∀ (fuel todo : Nat) (s : Scanner) (rem : Bytes) (x : σ), rem.length < fuel → s.level = l → s.frames.length = n →
      At s rem → match scan g todo rem x with
        | .ok y => ∃ s', loop h fuel todo s x = .ok (s', y) ∧ Same l s s' ∧ ∃ f, s'.frame = some f ∧ f.err = false
        | .err => ∃ s' y, loop h fuel todo s x = .ok (s', y) ∧ Same l s s' ∧ ∃ f, s'.frame = some f ∧ f.err = true
        | .panic => loop h fuel todo s x = .panic := by
  intro fuel
  induction fuel with
  | zero => intro todo s rem x hlt; omega
  | succ fuel ih =>
    intro todo s rem x hlt hl hn hat
    cases todo with
    | zero =>
      unfold scan
      obtain ⟨f, hf, he, _⟩ := hat
      exact ⟨s, rfl, Same.refl _ _, f, hf, he⟩
    | succ todo =>
      have ha := advance_next hat
      rw [hl] at ha
      cases hnx : next rem with
      | done =>
        rw [hnx] at ha
        rw [scan_done hnx]
        obtain ⟨f, hf, he, _⟩ := hat
        refine ⟨s, ?_, Same.refl _ _, f, hf, he⟩
        simp only [loop, ha]
      | bad =>
        rw [hnx] at ha
        rw [scan_bad hnx]
        obtain ⟨s', h1, h2, h3⟩ := ha
        refine ⟨s', x, ?_, h2, h3⟩
        simp only [loop, h1]
      | attr ty data rest =>
        rw [hnx] at ha
        rw [scan_attr hnx]
        obtain ⟨s1, h1, h2, ⟨f, hf, hfe, hfr⟩, f', hf', hty, hda⟩ := ha
        rw [hf] at hf'
        cases hf'
        have hlt' : rest.length < fuel := by have := next_length hnx; omega
        have hl1 : s1.level = l := h2.1.trans hl
        have hn1 : s1.frames.length = n := h2.2.1.trans hn
        have hh := hd s1 f rest x hl1 hn1 hf hfe hfr
        rw [hty, hda] at hh
        simp only [loop, h1]
        cases hg : g ty data x with
        | none =>
          rw [hg] at hh
          simp only [hh]
          have := ih (todo + 1) s1 rest x hlt' hl1 hn1 ⟨f, hf, hfe, hfr⟩
          cases hsc : scan g (todo + 1) rest x with
          | ok y => rw [hsc] at this; obtain ⟨s', a, b, c⟩ := this; exact ⟨s', a, h2.trans b, c⟩
          | err => rw [hsc] at this; obtain ⟨s', y, a, b, c⟩ := this; exact ⟨s', y, a, h2.trans b, c⟩
          | panic => rw [hsc] at this; exact this
        | some r => cases r with
          | panic => rw [hg] at hh; simp only [hh]
          | err =>
            rw [hg] at hh
            obtain ⟨s2, y, a, b, f2, hf2, he2⟩ := hh
            refine ⟨s2, y, ?_, h2.trans b, f2, hf2, he2⟩
            simp only [a]
            cases fuel with
            | zero => omega
            | succ fuel => cases todo with
              | zero => rfl
              | succ todo => simp only [loop, advance_err hf2 he2]
          | ok y =>
            rw [hg] at hh
            obtain ⟨s2, a, b, c⟩ := hh
            simp only [a]
            have := ih todo s2 rest y hlt' (b.1.trans hl1) (b.2.1.trans hn1) c
            cases hsc : scan g todo rest y with
            | ok y => rw [hsc] at this; obtain ⟨s', p, q, r⟩ := this; exact ⟨s', p, h2.trans (b.trans q), r⟩
            | err => rw [hsc] at this; obtain ⟨s', y, p, q, r⟩ := this; exact ⟨s', y, p, h2.trans (b.trans q), r⟩
            | panic => rw [hsc] at this; exact this

theorem run_scan {σ : Type} {l n : Nat} {h : Scanner → σ → Out (Scanner × σ × Bool)} {g : Nat → Bytes → σ → Option (Res σ)}
    (hd : Does l n h g) (todo : Nat) : Reads l n (run h todo) (scan g todo) := by
  intro s rem x hl hn hat
  have hleft : rem.length < s.left + 1 := by
    obtain ⟨f, hf, _, hr⟩ := hat
    simp only [Scanner.left, hf, ← hr, List.length_drop]
    omega
  have := loop_scan hd (s.left + 1) todo s rem x hleft hl hn hat
  unfold run
  cases hsc : scan g todo rem x with
  | ok y =>
    rw [hsc] at this
    obtain ⟨s', a, b, f, hf, he⟩ := this
    exact ⟨s', by simp only [a, hf, he], b⟩
  | err =>
    rw [hsc] at this
    obtain ⟨s', y, a, b, f, hf, he⟩ := this
    exact ⟨s', y, by simp only [a, hf, he], b⟩
  | panic =>
    rw [hsc] at this
    simp only [this]

theorem onAttr_does {σ : Type} (l n : Nat) (g : Nat → Bytes → σ → Option (Res σ)) (hg : ∀ ty data x, g ty data x ≠ some .err) :
    Does l n (onAttr g) g := by
  intro s f rem x hl hn hf he hr
  unfold onAttr
  simp only [hf]
  cases hgx : g (f.typ % 16384) f.data x with
  | none => rfl
  | some r => cases r with
    | ok y => exact ⟨s, rfl, Same.refl _ _, f, hf, he, hr⟩
    | err => exact (hg _ _ _ hgx).elim
    | panic => rfl

theorem fIP_no_err (ty : Nat) (data : Bytes) (t : Tuple) : fIP ty data t ≠ some .err := by
  unfold fIP
  split
  · simp
  · split <;> simp

theorem fProto_no_err (ty : Nat) (data : Bytes) (p : Proto) : fProto ty data p ≠ some .err := by
  have h0 : byte0 data ≠ .err := by cases data <;> simp [byte0]
  have h1 : be16 data ≠ .err := by
    cases data with
    | nil => simp [be16]
    | cons a r => cases r <;> simp [be16]
  unfold fProto
  split
  · cases hb : byte0 data with
    | err => exact (h0 hb).elim
    | ok a => simp
    | panic => simp
  · split
    · cases hb : be16 data with
      | err => exact (h1 hb).elim
      | ok a => simp
      | panic => simp
    · split
      · cases hb : be16 data with
        | err => exact (h1 hb).elim
        | ok a => simp
        | panic => simp
      · simp

theorem push_at {s : Scanner} {f : Frame} (hf : s.frame = some f) (hn : s.level + 1 < s.frames.length) :
    ∃ s1, push s = some s1 ∧ s1.level = s.level + 1 ∧ s1.frames.length = s.frames.length ∧ At s1 f.data ∧
      ∀ j, j < s.level + 1 → s1.frames[j]? = s.frames[j]? := by
  unfold push
  simp only [hf]
  rw [if_neg (by omega)]
  obtain ⟨cur, hc⟩ : ∃ cur, (Scanner.mk (s.level + 1) s.frames).frame = some cur := ⟨s.frames[s.level + 1], by
    simp only [Scanner.frame]; exact List.getElem?_eq_getElem hn⟩
  simp only [hc]
  refine ⟨_, rfl, rfl, by simp [Scanner.put], ⟨_, frame_put hc _, rfl, rfl⟩, ?_⟩
  exact (same_put (Scanner.mk (s.level + 1) s.frames) _).2.2

/-- Nesting a call that reads. -/
theorem nested_reads {σ : Type} {l n : Nat} {u : Scanner → σ → Out (Scanner × σ × Bool)} {d : Bytes → σ → Res σ} (hu : Reads (l + 1) n u d)
    (hln : l + 1 < n) (s : Scanner) (f : Frame) (rem : Bytes) (x : σ) (hl : s.level = l) (hn : s.frames.length = n) (hf : s.frame = some f)
    (hr : f.b.drop f.i = rem) : match d f.data x with
      | .ok y => ∃ s', nested u s x = .ok (s', y) ∧ Same l s s' ∧ At s' rem
      | .err => ∃ s' y, nested u s x = .ok (s', y) ∧ Same l s s' ∧ ∃ f', s'.frame = some f' ∧ f'.err = true
      | .panic => nested u s x = .panic := by
  obtain ⟨s1, hp, hl1, hn1, hat, hlow⟩ := push_at hf (by omega)
  have := hu s1 f.data x (by omega) (by omega) hat
  unfold nested
  simp only [hp]
  -- after the pop the frame is the one we had
  have back : ∀ s2 : Scanner, Same (l + 1) s1 s2 → ∀ e : Bool, ∃ g : Frame, (Scanner.mk (s2.level - 1) s2.frames).frame = some f ∧
      Same l s ((Scanner.mk (s2.level - 1) s2.frames).put { f with err := e }) ∧
      ((Scanner.mk (s2.level - 1) s2.frames).put { f with err := e }).frame = some g ∧ g = { f with err := e } := by
    intro s2 h2 e
    have hlv : s2.level - 1 = l := by rw [h2.1]; omega
    have hfr : (Scanner.mk (s2.level - 1) s2.frames).frame = some f := by
      simp only [Scanner.frame, hlv]
      rw [h2.2.2 l (by omega), hlow l (by omega), ← hl]
      exact hf
    refine ⟨_, hfr, ?_, frame_put hfr _, rfl⟩
    have hs := same_put (Scanner.mk (s2.level - 1) s2.frames) { f with err := e }
    refine ⟨hs.1.trans (hlv.trans hl.symm), ?_, fun j hj => ?_⟩
    · exact hs.2.1.trans (h2.2.1.trans hn1)
    · rw [hs.2.2 j (by simp only [hlv]; exact hj)]
      simp only
      rw [h2.2.2 j (by omega), hlow j (by omega)]
  cases hd : d f.data x with
  | ok y =>
    rw [hd] at this
    obtain ⟨s2, a, b⟩ := this
    obtain ⟨g, hfr, hs, hg, hge⟩ := back s2 b false
    refine ⟨_, by simp only [a, hfr], hs, g, hg, by rw [hge], by rw [hge]; exact hr⟩
  | err =>
    rw [hd] at this
    obtain ⟨s2, y, a, b⟩ := this
    obtain ⟨g, hfr, hs, hg, hge⟩ := back s2 b true
    exact ⟨_, y, by simp only [a, hfr], hs, g, hg, by rw [hge]⟩
  | panic =>
    rw [hd] at this
    simp only [this]

theorem ip_reads (n : Nat) : Reads 2 n unmarshalIP (scan fIP 2) := run_scan (onAttr_does 2 n fIP fIP_no_err) 2

/-- `unmarshalProto` on the bytes. -/
def protoOf (b : Bytes) (t : Tuple) : Res Tuple := match scan fProto 3 b noProto with
  | .ok p => .ok { t with proto := some p }
  | .err => .err
  | .panic => .panic

theorem proto_reads (n : Nat) : Reads 2 n unmarshalProto protoOf := by
  intro s rem x hl hn hat
  have := run_scan (onAttr_does 2 n fProto fProto_no_err) 3 s rem noProto hl hn hat
  unfold protoOf unmarshalProto
  cases hsc : scan fProto 3 rem noProto with
  | ok p => rw [hsc] at this; obtain ⟨s', a, b⟩ := this; exact ⟨s', by simp only [a], b⟩
  | err => rw [hsc] at this; obtain ⟨s', y, a, b⟩ := this; exact ⟨s', { x with proto := some y }, by simp only [a], b⟩
  | panic => rw [hsc] at this; simp only [this]

theorem tuple_does (n : Nat) (hn3 : 3 ≤ n) : Does 1 n hTuple fTuple := by
  intro s f rem x hl hn hf he hr
  unfold hTuple fTuple
  simp only [hf]
  by_cases h1 : f.typ % 16384 = 1
  · simp only [if_pos h1]
    have := nested_reads (ip_reads n) (by omega) s f rem x hl hn hf hr
    cases hsc : scan fIP 2 f.data x with
    | ok y => rw [hsc] at this; obtain ⟨s', a, b⟩ := this; exact ⟨s', by simp only [a], b⟩
    | err => rw [hsc] at this; obtain ⟨s', y, a, b⟩ := this; exact ⟨s', y, by simp only [a], b⟩
    | panic => rw [hsc] at this; simp only [this]
  · simp only [if_neg h1]
    by_cases h2 : f.typ % 16384 = 2
    · simp only [if_pos h2]
      have := nested_reads (proto_reads n) (by omega) s f rem x hl hn hf hr
      unfold protoOf at this
      cases hsc : scan fProto 3 f.data noProto with
      | ok y => rw [hsc] at this; obtain ⟨s', a, b⟩ := this; exact ⟨s', by simp only [a], b⟩
      | err => rw [hsc] at this; obtain ⟨s', y, a, b⟩ := this; exact ⟨s', y, by simp only [a], b⟩
      | panic => rw [hsc] at this; simp only [this]
    · simp only [if_neg h2]

theorem con_does (n : Nat) (hn3 : 3 ≤ n) : Does 0 n hCon fCon := by
  intro s f rem x hl hn hf he hr
  have hu : Reads 1 n unmarshalTuple (scan fTuple 2) := run_scan (tuple_does n hn3) 2
  unfold hCon fCon
  simp only [hf]
  by_cases h1 : f.typ % 16384 = 1
  · simp only [if_pos h1]
    have := nested_reads hu (by omega) s f rem x.origin hl hn hf hr
    cases hsc : scan fTuple 2 f.data x.origin with
    | ok y => rw [hsc] at this; obtain ⟨s', a, b⟩ := this; exact ⟨s', by simp only [a], b⟩
    | err => rw [hsc] at this; obtain ⟨s', y, a, b⟩ := this; exact ⟨s', { x with origin := y }, by simp only [a], b⟩
    | panic => rw [hsc] at this; simp only [this]
  · simp only [if_neg h1]
    by_cases h2 : f.typ % 16384 = 2
    · simp only [if_pos h2]
      have := nested_reads hu (by omega) s f rem x.reply hl hn hf hr
      cases hsc : scan fTuple 2 f.data x.reply with
      | ok y => rw [hsc] at this; obtain ⟨s', a, b⟩ := this; exact ⟨s', by simp only [a], b⟩
      | err => rw [hsc] at this; obtain ⟨s', y, a, b⟩ := this; exact ⟨s', { x with reply := y }, by simp only [a], b⟩
      | panic => rw [hsc] at this; simp only [this]
    · simp only [if_neg h2]

/-- Whatever earlier messages left in the frames, in the level and in the errors: a message is decoded from its own bytes, the frames stay
as many as they were, no loop turns more often than there are bytes, and no frame is missing. -/
theorem message_alone (s : Scanner) (h3 : 3 ≤ s.frames.length) (m : Bytes) : match decode m with
    | .ok c => ∃ s', decodeOne s m = .ok (s', some c) ∧ s'.frames.length = s.frames.length
    | .err => ∃ s', decodeOne s m = .ok (s', none) ∧ s'.frames.length = s.frames.length
    | .panic => decodeOne s m = .panic := by
  unfold decode decodeOne resetTo
  cases m with
  | nil => exact ⟨_, rfl, by simp⟩
  | cons a r => cases r with
    | nil => exact ⟨_, rfl, by simp⟩
    | cons b r =>
      simp only
      by_cases hle : (a :: b :: r).length ≤ messageOffset a b
      · simp only [if_pos hle]
        exact ⟨_, rfl, by simp⟩
      · simp only [if_neg hle]
        obtain ⟨f0, hf0⟩ : ∃ f, (Scanner.mk 0 (s.frames.map Frame.cleared)).frame = some f ∧ f.i = 0 ∧ f.err = false := by
          have h0 : 0 < s.frames.length := by omega
          refine ⟨(s.frames[0]).cleared, ?_, rfl, rfl⟩
          simp only [Scanner.frame]
          rw [List.getElem?_map, List.getElem?_eq_getElem h0]
          rfl
        simp only [hf0.1]
        have hat : At ((Scanner.mk 0 (s.frames.map Frame.cleared)).put { f0 with b := (a :: b :: r).drop (messageOffset a b) })
            ((a :: b :: r).drop (messageOffset a b)) := ⟨_, frame_put hf0.1 _, hf0.2.2, by simp only [hf0.2.1, List.drop_zero]⟩
        have hlen : ((Scanner.mk 0 (s.frames.map Frame.cleared)).put { f0 with b := (a :: b :: r).drop (messageOffset a b) }).frames.length =
            s.frames.length := by simp [Scanner.put]
        have := run_scan (con_does s.frames.length h3) 2 _ _ ⟨noTuple, noTuple⟩ rfl hlen hat
        unfold unmarshalCon
        cases hsc : scan fCon 2 ((a :: b :: r).drop (messageOffset a b)) ⟨noTuple, noTuple⟩ with
        | ok p => rw [hsc] at this; obtain ⟨s', x, y⟩ := this; exact ⟨s', by simp only [x], y.2.1.trans hlen⟩
        | err => rw [hsc] at this; obtain ⟨s', z, x, y⟩ := this; exact ⟨s', by simp only [x], y.2.1.trans hlen⟩
        | panic => rw [hsc] at this; simp only [this]

theorem event_alone (ms : List Bytes) : ∀ (s : Scanner), 3 ≤ s.frames.length → match decodeAll ms with
    | some cs => ∃ s', decodeEvent s ms = .ok (s', cs) ∧ s'.frames.length = s.frames.length
    | none => decodeEvent s ms = .panic := by
  induction ms with
  | nil => intro s h3; exact ⟨s, rfl, rfl⟩
  | cons m r ih =>
    intro s h3
    have h1 := message_alone s h3 m
    unfold decodeAll decodeEvent
    cases hd : decode m with
    | panic => rw [hd] at h1; simp only [h1]
    | err =>
      rw [hd] at h1
      obtain ⟨s1, a, b⟩ := h1
      have := ih s1 (by omega)
      simp only [a]
      cases hr : decodeAll r with
      | none => rw [hr] at this; simp only [this]
      | some cs => rw [hr] at this; obtain ⟨s', c, d⟩ := this; exact ⟨s', by simp only [c]; rfl, d.trans b⟩
    | ok c =>
      rw [hd] at h1
      obtain ⟨s1, a, b⟩ := h1
      have := ih s1 (by omega)
      simp only [a]
      cases hr : decodeAll r with
      | none => rw [hr] at this; simp only [this]
      | some cs => rw [hr] at this; obtain ⟨s', e, d⟩ := this; exact ⟨s', by simp only [e]; rfl, d.trans b⟩

/-- One decoder for the dump and for all events after it: each event is decoded as if it were the first, in order; only the panics on short
ports and numbers (`Decode.short_proto_panics`) end it. -/
theorem one_decoder_for_all (es : List (List Bytes)) : match mapOpt decodeAll es with
    | some css => ∃ s', decodeEvents new es = .ok (s', css)
    | none => decodeEvents new es = .panic := by
  have key : ∀ (es : List (List Bytes)) (s : Scanner), 3 ≤ s.frames.length → match mapOpt decodeAll es with
      | some css => ∃ s', decodeEvents s es = .ok (s', css)
      | none => decodeEvents s es = .panic := by
    intro es
    induction es with
    | nil => intro s _; exact ⟨s, rfl⟩
    | cons e r ih =>
      intro s h3
      have h1 := event_alone e s h3
      unfold mapOpt decodeEvents
      cases hd : decodeAll e with
      | none => rw [hd] at h1; simp only [h1]
      | some cs =>
        rw [hd] at h1
        obtain ⟨s1, a, b⟩ := h1
        have := ih s1 (by omega)
        simp only [a]
        cases hr : mapOpt decodeAll r with
        | none => rw [hr] at this; simp only [this]
        | some css => rw [hr] at this; obtain ⟨s', c⟩ := this; exact ⟨s', by simp only [c]⟩
  exact key es new (by decide)

/-- A message of the kernel after any others, good or bad, that did not bring the decoder down. -/
theorem good_after_bad (before : List Bytes) (s : Scanner) (h3 : 3 ≤ s.frames.length) (cs : List Con) (hb : decodeAll before = some cs)
    (m : Bytes) (c : Con) (hm : decode m = .ok c) : ∃ s', decodeEvent s (before ++ [m]) = .ok (s', cs ++ [c]) := by
  have hall : ∀ (before : List Bytes) (cs : List Con), decodeAll before = some cs → decodeAll (before ++ [m]) = some (cs ++ [c]) := by
    intro before
    induction before with
    | nil => intro cs h; cases h; simp only [List.nil_append, decodeAll, hm]
    | cons x r ih =>
      intro cs h
      unfold decodeAll at h
      rw [List.cons_append]
      unfold decodeAll
      cases hx : decode x with
      | panic => rw [hx] at h; cases h
      | err => rw [hx] at h; simp only at h ⊢; exact ih cs h
      | ok c' =>
        rw [hx] at h
        simp only at h ⊢
        cases hr : decodeAll r with
        | none => rw [hr] at h; cases h
        | some cs' => rw [hr] at h; cases h; rw [ih cs' hr]; rfl
  have := event_alone (before ++ [m]) s h3
  rw [hall before cs hb] at this
  obtain ⟨s', a, _⟩ := this
  exact ⟨s', a⟩

/-! ### The frame that is never made -/

/-- The frames stay as many as they are: the branch that makes one is not reached. -/
theorem never_grows (s s' : Scanner) (h : push s = some s') : s'.frames.length = s.frames.length ∧ s'.level = s.level + 1 := by
  unfold push at h
  split at h
  · cases h
  · next f hf =>
    have hl : s.level < s.frames.length := by
      unfold Scanner.frame at hf
      exact (List.getElem?_eq_some_iff.1 hf).1
    rw [if_neg (by omega)] at h
    simp only at h
    split at h
    · cases h
    · cases h
      exact ⟨by simp [Scanner.put], rfl⟩

/-- One level deeper than there are frames is a panic, though the code has a branch to make the frame. -/
theorem deeper_panics {σ : Type} (s : Scanner) (h : s.level + 1 ≥ s.frames.length) (fn : Scanner → σ → Out (Scanner × σ × Bool)) (x : σ) :
    nested fn s x = .panic := by
  have : push s = none := by
    unfold push
    split
    · rfl
    · next f hf =>
      have hl : s.level < s.frames.length := by
        unfold Scanner.frame at hf
        exact (List.getElem?_eq_some_iff.1 hf).1
      rw [if_neg (by omega)]
      simp only
      rw [show (Scanner.mk (s.level + 1) s.frames).frame = none from by
        simp only [Scanner.frame]; exact List.getElem?_eq_none (by omega)]
  unfold nested
  rw [this]

/-- With fewer than three frames a complete tuple brings the decoder down: the number is the depth of the messages, not a matter of speed. -/
theorem three_needed (d : Dir) (h : d.Ok) (s : Scanner) (f : Frame) (t : Tuple) (hf : s.frame = some f) (he : f.err = false)
    (hb : f.b.drop f.i = wire d.attrs) (hn : s.level + 1 ≥ s.frames.length) : unmarshalTuple s t = .panic := by
  have hat : At s (wire d.attrs) := ⟨f, hf, he, hb⟩
  have ha := advance_next hat
  have hw : wire d.attrs = (⟨1 + Decode.flag d.flag, wire d.ipAttrs⟩ : Attr).wire ++ wire (⟨2 + Decode.flag d.flag, wire d.protoAttrs⟩ :: d.more) := rfl
  rw [hw, next_wire _ (h.2.2 _ (by simp [Dir.attrs]))] at ha
  obtain ⟨s', h1, h2, _, f', hf', hty, hda⟩ := ha
  have hty1 : f'.typ % 16384 = 1 := by
    rw [hty]
    unfold Attr.ty Decode.flag
    cases d.flag <;> simp
  have hnest : nested unmarshalIP s' t = .panic := deeper_panics s' (by rw [h2.1, h2.2.1]; exact hn) _ _
  have hh : hTuple s' t = .panic := by
    unfold hTuple
    simp only [hf', if_pos hty1, hnest]
  unfold unmarshalTuple run
  simp only [loop, h1, hh]

/-! ### Example: a message cut short leaves an error in the frame, the next one is read all the same -/

def exFlow : Flow := ⟨[10, 0, 0, 1], [10, 0, 0, 2], 40000, 80⟩
def exMsg : Bytes := [2, 0, 0, 0] ++ wire (message [] (exDir exFlow) [] (exDir exFlow) [] true true)

example : (match decodeEvent new [exMsg.dropLast, exMsg.take 40, [2], exMsg] with
    | .ok (s, cs) => some (s.frames.length, cs.length)
    | _ => none) = some (3, 1) := by decide +kernel

example : (match decodeOne new (exMsg.take 40) with
    | .ok (s, none) => (s.level, s.frames.map (·.err))
    | _ => (9, [])) = (0, [true, false, false]) := by decide +kernel

example : (exDir exFlow).Ok := by
  refine ⟨?_, ?_, ?_⟩ <;> intro a ha <;> simp [exDir, Dir.ipAttrs, Dir.protoAttrs, Dir.attrs] at ha <;>
    rcases ha with rfl | rfl | rfl <;> exact ⟨by decide, by decide +kernel⟩

example (h : (exDir exFlow).Ok) : unmarshalTuple ⟨1, [⟨0, 0, [], [], 0, false⟩, ⟨7, 1, [], wire (exDir exFlow).attrs, 0, false⟩]⟩ noTuple = .panic :=
  three_needed (exDir exFlow) h _ _ noTuple rfl rfl rfl (by decide)

end Kindling.Conn.Scanner
