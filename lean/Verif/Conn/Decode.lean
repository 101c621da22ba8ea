import Verif.Conn.Lookup
/-
Decoding of conntrack messages.  metadata/conntracker/internal/attribute_scanner.go, decoding.go, encoding.go, align.go.
-/
namespace Kindling.Conn.Decode

open Kindling.Conn.Lookup

/-- What `Next` finds. -/
inductive Next
  | done
  | bad
  | attr (ty : Nat) (data rest : Bytes)

/-- `nlaAlign` (align.go:44-46): the next multiple of four. -/
def align (n : Nat) : Nat := (n + 3) / 4 * 4

/-- `Next`, `unmarshal` and `Type` (attribute_scanner.go:66-101, 177-205) on the bytes from the iterator on.  Numbers are
little endian (`nlenc` uses the byte order of the machine: amd64, arm64); the mask 0x3fff is a remainder. -/
def next (b : Bytes) : Next := match b with
  | [] => .done
  | l0 :: l1 :: t0 :: t1 :: r =>
    let len := l0.toNat + 256 * l1.toNat
    let ty := (t0.toNat + 256 * t1.toNat) % 16384
    if len > r.length + 4 then .bad
    else if len = 0 then .attr ty [] r
    else if len < 4 then .bad
    else .attr ty (r.take (len - 4)) (r.drop (align len - 4))
  | _ => .bad

theorem next_length {b : Bytes} {ty : Nat} {data rest : Bytes} (h : next b = .attr ty data rest) : rest.length < b.length := by
  unfold next at h
  split at h
  · cases h
  · simp only at h
    split at h
    · cases h
    · split at h
      · cases h; simp only [List.length_cons]; omega
      · split at h
        · cases h
        · cases h; simp only [List.length_cons, List.length_drop]; omega
  · cases h

/-- The loops `for toDecode := todo; toDecode > 0 && Next(); { switch Type() ... }; return Err()` (decoding.go:97-112,
116-130, 135-150, 156-173).  `f` handles the attributes of interest; an error of a nested attribute becomes the error of
the frame (attribute_scanner.go:113-124) and ends the loop. -/
def scan {σ : Type} (f : Nat → Bytes → σ → Option (Res σ)) (todo : Nat) (b : Bytes) (s : σ) : Res σ := match todo with
  | 0 => .ok s
  | n + 1 => match _h : next b with
    | .done => .ok s
    | .bad => .err
    | .attr ty data rest => match f ty data s with
      | none => scan f (n + 1) rest s
      | some (.ok s') => scan f n rest s'
      | some .err => .err
      | some .panic => .panic
termination_by b.length
decreasing_by all_goals exact next_length _h

/-- `unmarshalTupleIP` (decoding.go:134-151). -/
def fIP (ty : Nat) (data : Bytes) (t : Tuple) : Option (Res Tuple) :=
  if ty = 1 ∨ ty = 3 then some (.ok { t with src := some data })
  else if ty = 2 ∨ ty = 4 then some (.ok { t with dst := some data })
  else none

/-- `binary.BigEndian.Uint16`. -/
def be16 : Bytes → Res UInt16
  | a :: b :: _ => .ok (UInt16.ofNat (a.toNat * 256 + b.toNat))
  | _ => .panic

def byte0 : Bytes → Res UInt8
  | a :: _ => .ok a
  | [] => .panic

/-- `unmarshalProto` (decoding.go:153-174). -/
def fProto (ty : Nat) (data : Bytes) (p : Proto) : Option (Res Proto) :=
  if ty = 1 then some (match byte0 data with
    | .ok n => .ok { p with number := some n }
    | .err => .err
    | .panic => .panic)
  else if ty = 2 then some (match be16 data with
    | .ok n => .ok { p with srcPort := some n }
    | .err => .err
    | .panic => .panic)
  else if ty = 3 then some (match be16 data with
    | .ok n => .ok { p with dstPort := some n }
    | .err => .err
    | .panic => .panic)
  else none

def noProto : Proto := ⟨none, none, none⟩

/-- `unmarshalTuple` (decoding.go:115-131); `t.Proto` points to a fresh structure before its attributes are read. -/
def fTuple (ty : Nat) (data : Bytes) (t : Tuple) : Option (Res Tuple) :=
  if ty = 1 then some (scan fIP 2 data t)
  else if ty = 2 then some (match scan fProto 3 data noProto with
    | .ok p => .ok { t with proto := some p }
    | .err => .err
    | .panic => .panic)
  else none

/-- Both tuples while they are decoded. -/
structure Pair where
  origin : Tuple
  reply : Tuple

/-- `unmarshalCon` (decoding.go:93-113). -/
def fCon (ty : Nat) (data : Bytes) (c : Pair) : Option (Res Pair) :=
  if ty = 1 then some (match scan fTuple 2 data c.origin with
    | .ok t => .ok { c with origin := t }
    | .err => .err
    | .panic => .panic)
  else if ty = 2 then some (match scan fTuple 2 data c.reply with
    | .ok t => .ok { c with reply := t }
    | .err => .err
    | .panic => .panic)
  else none

def noTuple : Tuple := ⟨none, none, none⟩

/-- `messageOffset` (attribute_scanner.go:208-213). -/
def messageOffset (a b : UInt8) : Nat := if (a = 2 ∨ a = 10) ∧ b = 0 then 4 else 0

/-- `ResetTo` (attribute_scanner.go:127-148) and `unmarshalCon`: one message of `DecodeAndReleaseEvent`
(decoding.go:71-91). -/
def decode (data : Bytes) : Res Con := match data with
  | a :: b :: _ =>
    if data.length ≤ messageOffset a b then .err
    else match scan fCon 2 (data.drop (messageOffset a b)) ⟨noTuple, noTuple⟩ with
      | .ok p => .ok ⟨some p.origin, some p.reply⟩
      | .err => .err
      | .panic => .panic
  | _ => .err

/-- `DecodeAndReleaseEvent` (decoding.go:71-91): messages with errors are skipped; `none` is a panic. -/
def decodeAll : List Bytes → Option (List Con)
  | [] => some []
  | m :: r => match decode m with
    | .panic => none
    | .err => decodeAll r
    | .ok c => match decodeAll r with
      | none => none
      | some cs => some (c :: cs)

/-! ### Messages -/

def le16 (n : Nat) : Bytes := [UInt8.ofNat (n % 256), UInt8.ofNat (n / 256)]

/-- An attribute on the wire: type with flags, and data. -/
structure Attr where
  raw : Nat
  data : Bytes

def Attr.ty (a : Attr) : Nat := a.raw % 16384
def Attr.Ok (a : Attr) : Prop := a.raw < 65536 ∧ a.data.length + 4 < 65536

/-- An attribute as the kernel writes it: header, data, padding. -/
def Attr.wire (a : Attr) : Bytes :=
  le16 (a.data.length + 4) ++ le16 a.raw ++ a.data ++ List.replicate (align a.data.length - a.data.length) 0

def wire (as : List Attr) : Bytes := as.flatMap Attr.wire

/-- Spec: the loops on attributes. -/
def scanList {σ : Type} (f : Nat → Bytes → σ → Option (Res σ)) : Nat → List Attr → σ → Res σ
  | 0, _, s => .ok s
  | _ + 1, [], s => .ok s
  | n + 1, a :: as, s => match f a.ty a.data s with
    | none => scanList f (n + 1) as s
    | some (.ok s') => scanList f n as s'
    | some .err => .err
    | some .panic => .panic

theorem le16_val (n : Nat) (h : n < 65536) : ∃ a b : UInt8, le16 n = [a, b] ∧ a.toNat + 256 * b.toNat = n := by
  refine ⟨_, _, rfl, ?_⟩
  rw [UInt8.toNat_ofNat', UInt8.toNat_ofNat']
  omega

theorem align_add (n : Nat) : align (n + 4) = align n + 4 := by unfold align; omega
theorem le_align (n : Nat) : n ≤ align n := by unfold align; omega

theorem next_wire (a : Attr) (h : a.Ok) (rest : Bytes) : next (a.wire ++ rest) = .attr a.ty a.data rest := by
  obtain ⟨l0, l1, hl, hlv⟩ := le16_val (a.data.length + 4) h.2
  obtain ⟨t0, t1, ht, htv⟩ := le16_val a.raw h.1
  unfold Attr.wire
  rw [hl, ht]
  simp only [List.cons_append, List.nil_append, next, hlv, htv]
  rw [if_neg (by simp only [List.length_append]; omega), if_neg (by omega), if_neg (by omega)]
  congr 1
  · rw [Nat.add_sub_cancel, List.append_assoc, List.take_left]
  · rw [align_add, Nat.add_sub_cancel]
    have : (a.data ++ List.replicate (align a.data.length - a.data.length) 0 : Bytes).length = align a.data.length := by
      have := le_align a.data.length
      simp only [List.length_append, List.length_replicate]
      omega
    exact List.drop_left' this

theorem scan_wire {σ : Type} (f : Nat → Bytes → σ → Option (Res σ)) (todo : Nat) (as : List Attr) (h : ∀ a ∈ as, a.Ok) (s : σ) :
    scan f todo (wire as) s = scanList f todo as s := by
  induction as generalizing todo s with
  | nil =>
    cases todo with
    | zero => rw [scan, scanList]
    | succ n =>
      rw [scan, scanList]
      rfl
  | cons a r ih =>
    have hr := fun x hx => h x (List.mem_cons_of_mem _ hx)
    cases todo with
    | zero => rw [scan, scanList]
    | succ n =>
      have hn : next (wire (a :: r)) = .attr a.ty a.data (wire r) := by
        have : wire (a :: r) = a.wire ++ wire r := by unfold wire; rw [List.flatMap_cons]
        rw [this]
        exact next_wire a (h a (by simp)) _
      rw [scan, scanList]
      split
      · rename_i heq; rw [hn] at heq; cases heq
      · rename_i heq; rw [hn] at heq; cases heq
      · rename_i ty data rest heq
        rw [hn] at heq
        cases heq
        cases f a.ty a.data s with
        | none => exact ih _ hr _
        | some x =>
          cases x with
          | ok s' => exact ih _ hr _
          | err => rfl
          | panic => rfl

/-- The loops never skip an attribute of interest that comes first among those of its kind. -/
theorem scanList_skip {σ : Type} (f : Nat → Bytes → σ → Option (Res σ)) (n : Nat) (pre as : List Attr) (s : σ)
    (h : ∀ a ∈ pre, ∀ d s, f a.ty d s = none) : scanList f (n + 1) (pre ++ as) s = scanList f (n + 1) as s := by
  induction pre with
  | nil => rfl
  | cons a r ih =>
    rw [List.cons_append, scanList, h a (by simp)]
    exact ih (fun x hx => h x (List.mem_cons_of_mem _ hx))

/-! ### What the kernel sends -/

def be (p : UInt16) : Bytes := [UInt8.ofNat (p.toNat / 256), UInt8.ofNat (p.toNat % 256)]

theorem be16_be (p : UInt16) : be16 (be p) = .ok p := by
  unfold be be16
  simp only
  congr 1
  apply UInt16.toNat_inj.1
  have := p.toNat_lt
  rw [UInt16.toNat_ofNat', UInt8.toNat_ofNat', UInt8.toNat_ofNat']
  omega

/-- Spec: the attributes of one direction.  Nested attributes may carry the nesting flag (`fl`, 0 or 32768); further
attributes may follow the addresses, the ports and the tuple. -/
structure Dir where
  flow : Flow
  num : UInt8
  v6 : Bool
  flag : Bool
  moreIp : List Attr
  moreProto : List Attr
  more : List Attr

def flag (b : Bool) : Nat := if b then 32768 else 0

def Dir.ipAttrs (d : Dir) : List Attr :=
  [⟨if d.v6 then 3 else 1, d.flow.src⟩, ⟨if d.v6 then 4 else 2, d.flow.dst⟩] ++ d.moreIp
def Dir.protoAttrs (d : Dir) : List Attr :=
  [⟨1, [d.num]⟩, ⟨2, be d.flow.sport⟩, ⟨3, be d.flow.dport⟩] ++ d.moreProto
def Dir.attrs (d : Dir) : List Attr :=
  [⟨1 + Decode.flag d.flag, wire d.ipAttrs⟩, ⟨2 + Decode.flag d.flag, wire d.protoAttrs⟩] ++ d.more

def Dir.Ok (d : Dir) : Prop := (∀ a ∈ d.ipAttrs, a.Ok) ∧ (∀ a ∈ d.protoAttrs, a.Ok) ∧ (∀ a ∈ d.attrs, a.Ok)

theorem scan_dir (d : Dir) (h : d.Ok) (t : Tuple) : scan fTuple 2 (wire d.attrs) t = .ok (d.flow.tuple d.num) := by
  rw [scan_wire _ _ _ h.2.2]
  have e1 : (⟨1 + flag d.flag, wire d.ipAttrs⟩ : Attr).ty = 1 := by unfold Attr.ty flag; cases d.flag <;> simp
  have e2 : (⟨2 + flag d.flag, wire d.protoAttrs⟩ : Attr).ty = 2 := by unfold Attr.ty flag; cases d.flag <;> simp
  have hip : ∀ t, scan fIP 2 (wire d.ipAttrs) t = .ok { t with src := some d.flow.src, dst := some d.flow.dst } := by
    intro t
    rw [scan_wire _ _ _ h.1]
    unfold Dir.ipAttrs
    cases d.v6 <;> simp [scanList, fIP, Attr.ty]
  have hpr : scan fProto 3 (wire d.protoAttrs) noProto = .ok ⟨some d.num, some d.flow.sport, some d.flow.dport⟩ := by
    rw [scan_wire _ _ _ h.2.1]
    unfold Dir.protoAttrs
    simp [scanList, fProto, Attr.ty, byte0, be16_be, noProto]
  have e : d.attrs = ⟨1 + flag d.flag, wire d.ipAttrs⟩ :: ⟨2 + flag d.flag, wire d.protoAttrs⟩ :: d.more := rfl
  rw [e, scanList, e1]
  simp only [fTuple, if_true, hip]
  rw [scanList, e2]
  simp only [fTuple, if_true, if_neg (show ¬ (2 : Nat) = 1 by decide), hpr]
  rw [scanList]
  rfl

/-- A message: the attributes of both directions among others. -/
def message (pre : List Attr) (o : Dir) (mid : List Attr) (r : Dir) (post : List Attr) (fo fr : Bool) : List Attr :=
  pre ++ ⟨1 + flag fo, wire o.attrs⟩ :: (mid ++ ⟨2 + flag fr, wire r.attrs⟩ :: post)

theorem scan_message (pre : List Attr) (o : Dir) (mid : List Attr) (r : Dir) (post : List Attr) (fo fr : Bool) (ho : o.Ok) (hr : r.Ok)
    (hok : ∀ a ∈ message pre o mid r post fo fr, a.Ok) (hpre : ∀ a ∈ pre ++ mid, a.ty ≠ 1 ∧ a.ty ≠ 2) (c : Pair) :
    scan fCon 2 (wire (message pre o mid r post fo fr)) c = .ok ⟨o.flow.tuple o.num, r.flow.tuple r.num⟩ := by
  rw [scan_wire _ _ _ hok]
  have skip : ∀ a : Attr, a.ty ≠ 1 ∧ a.ty ≠ 2 → ∀ d s, fCon a.ty d s = none := by
    intro a ha d s
    unfold fCon
    rw [if_neg ha.1, if_neg ha.2]
  have e1 : (⟨1 + flag fo, wire o.attrs⟩ : Attr).ty = 1 := by unfold Attr.ty flag; cases fo <;> simp
  have e2 : (⟨2 + flag fr, wire r.attrs⟩ : Attr).ty = 2 := by unfold Attr.ty flag; cases fr <;> simp
  unfold message
  rw [scanList_skip _ _ _ _ _ (fun a ha => skip a (hpre a (by simp [ha])))]
  rw [scanList, e1]
  simp only [fCon, if_true, scan_dir o ho]
  rw [scanList_skip _ _ _ _ _ (fun a ha => skip a (hpre a (by simp [ha])))]
  rw [scanList, e2]
  simp only [fCon, if_true, if_neg (show ¬ (2 : Nat) = 1 by decide), scan_dir r hr]
  rw [scanList]

/-- C81.  A message of the kernel (family and version header) decodes to its connection, whatever other attributes it
contains. -/
theorem message_decodes (fam x y : UInt8) (hf : fam = 2 ∨ fam = 10) (pre : List Attr) (o : Dir) (mid : List Attr) (r : Dir) (post : List Attr)
    (fo fr : Bool) (ho : o.Ok) (hr : r.Ok) (hn : o.num = r.num) (hok : ∀ a ∈ message pre o mid r post fo fr, a.Ok)
    (hpre : ∀ a ∈ pre ++ mid, a.ty ≠ 1 ∧ a.ty ≠ 2) :
    decode ([fam, 0, x, y] ++ wire (message pre o mid r post fo fr)) = .ok (con o.flow r.flow o.num) := by
  have hlen : 0 < (wire (message pre o mid r post fo fr)).length := by
    unfold message wire
    simp [Attr.wire, le16]
    omega
  have hoff : messageOffset fam 0 = 4 := by unfold messageOffset; rw [if_pos ⟨hf, rfl⟩]
  unfold decode
  simp only [List.cons_append, List.nil_append, hoff]
  rw [if_neg (by simp only [List.length_cons]; omega)]
  simp only [List.drop_succ_cons, List.drop_zero]
  rw [scan_message pre o mid r post fo fr ho hr hok hpre]
  simp only [con, hn]

/-- Events with several messages: all connections, in order. -/
theorem all_decoded (ms : List (Bytes × Con)) (h : ∀ p ∈ ms, decode p.1 = .ok p.2) : decodeAll (ms.map (·.1)) = some (ms.map (·.2)) := by
  induction ms with
  | nil => rfl
  | cons p r ih =>
    rw [List.map_cons, decodeAll, h p (by simp)]
    simp only [ih (fun q hq => h q (List.mem_cons_of_mem _ hq))]
    rfl

/-! ### Own encoding -/

/-- `EncodeConn`, `marshalIPTuple`, `marshalProto` (encoding.go:19-93) of a complete connection; the encoder of the netlink
package sets the nesting flag on nested attributes. -/
def encIp (v4 v6 : Nat) (ip : Ip) : Attr := match to4 ip with
  | some b => ⟨v4, b⟩
  | none => ⟨v6, ip⟩
def encTuple (f : Flow) (n : UInt8) : List Attr :=
  [⟨1 + 32768, wire [encIp 1 3 f.src, encIp 2 4 f.dst]⟩, ⟨2 + 32768, wire [⟨1, [n]⟩, ⟨2, be f.sport⟩, ⟨3, be f.dport⟩]⟩]
def encode (o r : Flow) (n : UInt8) : Bytes := wire [⟨1 + 32768, wire (encTuple o n)⟩, ⟨2 + 32768, wire (encTuple r n)⟩]

/-- The address as it comes back: the short form if there is one. -/
def short (ip : Ip) : Ip := match to4 ip with
  | some b => b
  | none => ip
def Flow.short (f : Flow) : Flow := { f with src := Decode.short f.src, dst := Decode.short f.dst }

theorem short_equal (ip : Ip) (h : IsIp ip) : ipEqual (short ip) ip = true := by
  unfold short to4
  rcases h with h | h
  · simp [h, ipEqual]
  · by_cases hp : ip.take 12 = v4Prefix
    · simp [h, hp, ipEqual]
    · simp [h, hp, ipEqual]

theorem short_length (ip : Ip) (h : IsIp ip) : (short ip).length ≤ 16 := by
  unfold short to4
  rcases h with h | h
  · simp [h]
  · by_cases hp : ip.take 12 = v4Prefix
    · simp [h, hp]
    · simp [h, hp]

theorem wire_length_le (as : List Attr) (m : Nat) (h : ∀ a ∈ as, a.data.length ≤ m) : (wire as).length ≤ as.length * (m + 7) := by
  induction as with
  | nil => simp [wire]
  | cons a r ih =>
    have : wire (a :: r) = a.wire ++ wire r := by unfold wire; rw [List.flatMap_cons]
    rw [this, List.length_append, List.length_cons, Nat.succ_mul]
    have h1 := ih (fun x hx => h x (List.mem_cons_of_mem _ hx))
    have h2 := h a (by simp)
    have h3 : a.wire.length ≤ m + 7 := by
      unfold Attr.wire le16 align
      simp only [List.length_append, List.length_cons, List.length_nil, List.length_replicate]
      omega
    omega

theorem encIp_data (a b : Nat) (ip : Ip) : (encIp a b ip).data = short ip := by
  unfold encIp short
  split <;> rfl

/-- Decoding undoes encoding, up to the form of the addresses. -/
theorem encode_decode (o r : Flow) (n : UInt8) (ho : o.Ok) (hr : r.Ok) : decode (encode o r n) = .ok (con (Flow.short o) (Flow.short r) n) := by
  -- one direction
  have hipok : ∀ f : Flow, f.Ok → ∀ a ∈ [encIp 1 3 f.src, encIp 2 4 f.dst], a.Ok := by
    intro f hf a ha
    have h1 := short_length _ hf.1
    have h2 := short_length _ hf.2
    simp only [List.mem_cons, List.not_mem_nil, or_false] at ha
    rcases ha with rfl | rfl
    · refine ⟨?_, by rw [encIp_data]; omega⟩
      unfold encIp; split <;> simp
    · refine ⟨?_, by rw [encIp_data]; omega⟩
      unfold encIp; split <;> simp
  have hprok : ∀ f : Flow, ∀ a ∈ ([⟨1, [n]⟩, ⟨2, be f.sport⟩, ⟨3, be f.dport⟩] : List Attr), a.Ok := by
    intro f a ha
    simp only [List.mem_cons, List.not_mem_nil, or_false] at ha
    rcases ha with rfl | rfl | rfl <;> simp [Attr.Ok, be]
  have hiplen : ∀ f : Flow, f.Ok → (wire [encIp 1 3 f.src, encIp 2 4 f.dst]).length ≤ 46 := by
    intro f hf
    have h1 := short_length _ hf.1
    have h2 := short_length _ hf.2
    refine wire_length_le _ 16 (fun a ha => ?_)
    simp only [List.mem_cons, List.not_mem_nil, or_false] at ha
    rcases ha with rfl | rfl <;> rw [encIp_data] <;> assumption
  have hprlen : ∀ f : Flow, (wire [⟨1, [n]⟩, ⟨2, be f.sport⟩, ⟨3, be f.dport⟩]).length ≤ 46 := by
    intro f
    refine Nat.le_trans (wire_length_le _ 2 (fun a ha => ?_)) (by simp)
    simp only [List.mem_cons, List.not_mem_nil, or_false] at ha
    rcases ha with rfl | rfl | rfl <;> simp [be]
  have htok : ∀ f : Flow, f.Ok → ∀ a ∈ encTuple f n, a.Ok := by
    intro f hf a ha
    have := hiplen f hf
    have := hprlen f
    unfold encTuple at ha
    simp only [List.mem_cons, List.not_mem_nil, or_false] at ha
    rcases ha with rfl | rfl <;> (unfold Attr.Ok; simp only; omega)
  have htlen : ∀ f : Flow, f.Ok → (wire (encTuple f n)).length ≤ 106 := by
    intro f hf
    have := hiplen f hf
    have := hprlen f
    refine wire_length_le _ 46 (fun a ha => ?_)
    unfold encTuple at ha
    simp only [List.mem_cons, List.not_mem_nil, or_false] at ha
    rcases ha with rfl | rfl <;> assumption
  have hdir : ∀ f : Flow, f.Ok → ∀ t, scan fTuple 2 (wire (encTuple f n)) t = .ok ((Flow.short f).tuple n) := by
    intro f hf t
    rw [scan_wire _ _ _ (htok f hf)]
    have hip : ∀ t, scan fIP 2 (wire [encIp 1 3 f.src, encIp 2 4 f.dst]) t =
        .ok { t with src := some (short f.src), dst := some (short f.dst) } := by
      intro t
      rw [scan_wire _ _ _ (hipok f hf)]
      have hs : fIP (encIp 1 3 f.src).ty (encIp 1 3 f.src).data t = some (.ok { t with src := some (short f.src) }) := by
        rw [encIp_data]
        unfold encIp Attr.ty fIP
        split <;> rfl
      have hd : ∀ t : Tuple, fIP (encIp 2 4 f.dst).ty (encIp 2 4 f.dst).data t = some (.ok { t with dst := some (short f.dst) }) := by
        intro t
        rw [encIp_data]
        unfold encIp Attr.ty fIP
        split <;> rfl
      rw [scanList, hs]
      simp only
      rw [scanList, hd]
      simp only
      rw [scanList]
    have hpr : scan fProto 3 (wire [⟨1, [n]⟩, ⟨2, be f.sport⟩, ⟨3, be f.dport⟩]) noProto = .ok ⟨some n, some f.sport, some f.dport⟩ := by
      rw [scan_wire _ _ _ (hprok f)]
      simp [scanList, fProto, Attr.ty, byte0, be16_be, noProto]
    unfold encTuple
    simp only [scanList, Attr.ty, fTuple, if_true, Nat.reduceAdd, Nat.reduceMod, hip, hpr, if_neg (show ¬ (2 : Nat) = 1 by decide)]
    rfl
  have hok : ∀ a ∈ ([⟨1 + 32768, wire (encTuple o n)⟩, ⟨2 + 32768, wire (encTuple r n)⟩] : List Attr), a.Ok := by
    intro a ha
    have := htlen o ho
    have := htlen r hr
    simp only [List.mem_cons, List.not_mem_nil, or_false] at ha
    rcases ha with rfl | rfl <;> (unfold Attr.Ok; simp only; omega)
  have hscan : scan fCon 2 (encode o r n) ⟨noTuple, noTuple⟩ = .ok ⟨(Flow.short o).tuple n, (Flow.short r).tuple n⟩ := by
    unfold encode
    rw [scan_wire _ _ _ hok]
    simp only [scanList, Attr.ty, fCon, if_true, Nat.reduceAdd, Nat.reduceMod, hdir o ho, hdir r hr, if_neg (show ¬ (2 : Nat) = 1 by decide)]
  -- the length is no family
  have hcases : ∃ a b rest, encode o r n = a :: b :: rest ∧ messageOffset a b = 0 := by
    obtain ⟨l0, l1, hl, hlv⟩ := le16_val ((wire (encTuple o n)).length + 4) (by have := htlen o ho; omega)
    refine ⟨l0, l1, ?_⟩
    have : encode o r n = (le16 ((wire (encTuple o n)).length + 4) ++ le16 (1 + 32768) ++ wire (encTuple o n) ++
        List.replicate (align (wire (encTuple o n)).length - (wire (encTuple o n)).length) 0) ++
        wire [⟨2 + 32768, wire (encTuple r n)⟩] := rfl
    rw [this, hl]
    refine ⟨_, rfl, ?_⟩
    unfold messageOffset
    rw [if_neg ?_]
    rintro ⟨h1, h2⟩
    have hge : 8 ≤ (wire (encTuple o n)).length := by
      have : wire (encTuple o n) = (⟨1 + 32768, wire [encIp 1 3 o.src, encIp 2 4 o.dst]⟩ : Attr).wire ++
          ((⟨2 + 32768, wire [⟨1, [n]⟩, ⟨2, be o.sport⟩, ⟨3, be o.dport⟩]⟩ : Attr).wire ++ []) := rfl
      rw [this]
      simp only [Attr.wire, le16, List.length_append, List.length_cons, List.length_nil]
      omega
    rw [h2] at hlv
    have : (0 : UInt8).toNat = 0 := rfl
    rcases h1 with h1 | h1 <;> rw [h1] at hlv
    · have : (2 : UInt8).toNat = 2 := rfl
      omega
    · have : (10 : UInt8).toNat = 10 := rfl
      omega
  obtain ⟨a, b, rest, he, hoff⟩ := hcases
  rw [he] at hscan ⊢
  unfold decode
  simp only [hoff]
  rw [if_neg (by simp)]
  simp only [List.drop_zero, hscan]
  rfl

/-! ### Malformed messages -/

/-- Finding: the data of the attributes of a protocol is read without checking its length.  An empty protocol number or a
port of less than two bytes crashes the process. -/
theorem short_proto_panics (ty : Nat) (data : Bytes) (h : (ty = 1 ∧ data = []) ∨ ((ty = 2 ∨ ty = 3) ∧ data.length < 2)) (rest : List Attr)
    (hd : (⟨ty, data⟩ : Attr).Ok) (hr : ∀ a ∈ rest, a.Ok) (p : Proto) : scan fProto 3 (wire (⟨ty, data⟩ :: rest)) p = .panic := by
  rw [scan_wire _ _ _ (by
    intro a ha
    rcases List.mem_cons.1 ha with rfl | ha
    · exact hd
    · exact hr a ha)]
  rw [scanList]
  rcases h with ⟨rfl, rfl⟩ | ⟨h1, h2⟩
  · rfl
  · have hb : be16 data = .panic := by
      match data, h2 with
      | [], _ => rfl
      | [_], _ => rfl
      | _ :: _ :: _, h2 => simp only [List.length_cons] at h2; omega
    rcases h1 with rfl | rfl
    · simp [fProto, Attr.ty, hb]
    · simp [fProto, Attr.ty, hb]

/-- The attributes the code reads without checks are long enough. -/
def ProtoSafe (as : List Attr) : Prop := ∀ a ∈ as, (a.ty = 1 → a.data ≠ []) ∧ (a.ty = 2 ∨ a.ty = 3 → 2 ≤ a.data.length)

/-- Nothing else panics: any bytes for the addresses, and any attributes of the protocol that are long enough. -/
theorem no_other_panic_partial (as : List Attr) (hs : ProtoSafe as) (hok : ∀ a ∈ as, a.Ok) (todo : Nat) (p : Proto) :
    scan fProto todo (wire as) p ≠ .panic ∧ ∀ (b : Bytes) (n : Nat) (t : Tuple), scan fIP n b t ≠ .panic := by
  constructor
  · rw [scan_wire _ _ _ hok]
    clear hok
    induction as generalizing todo p with
    | nil => cases todo <;> simp [scanList]
    | cons a r ih =>
      have hr : ProtoSafe r := fun x hx => hs x (List.mem_cons_of_mem _ hx)
      have ha := hs a (by simp)
      cases todo with
      | zero => simp [scanList]
      | succ n =>
        rw [scanList]
        unfold fProto
        have h2 : 2 ≤ a.data.length → ∃ v, be16 a.data = .ok v := by
          intro hl
          match a.data, hl with
          | [], hl => simp at hl
          | [_], hl => simp at hl
          | x :: y :: _, _ => exact ⟨_, rfl⟩
        by_cases h1 : a.ty = 1
        · rw [if_pos h1]
          have : ∃ v, byte0 a.data = .ok v := by
            have := ha.1 h1
            match a.data, this with
            | [], this => exact absurd rfl this
            | x :: _, _ => exact ⟨_, rfl⟩
          obtain ⟨v, hv⟩ := this
          simp only [hv]
          exact ih hr _ _
        · rw [if_neg h1]
          by_cases h3 : a.ty = 2
          · rw [if_pos h3]
            obtain ⟨v, hv⟩ := h2 (ha.2 (Or.inl h3))
            simp only [hv]
            exact ih hr _ _
          · rw [if_neg h3]
            by_cases h4 : a.ty = 3
            · rw [if_pos h4]
              obtain ⟨v, hv⟩ := h2 (ha.2 (Or.inr h4))
              simp only [hv]
              exact ih hr _ _
            · rw [if_neg h4]
              exact ih hr _ _
  · intro b n t
    fun_induction scan fIP n b t with
    | case1 => simp
    | case2 => simp
    | case3 => simp
    | case4 => assumption
    | case5 => assumption
    | case6 => simp
    | case7 b s n ty data rest heq hf =>
      unfold fIP at hf
      split at hf
      · cases hf
      · split at hf <;> cases hf

/-! ### Example -/

def exDir (f : Flow) : Dir := ⟨f, 6, false, true, [], [], [⟨3, [0, 0]⟩]⟩
example : decode ([2, 0, 0, 0] ++ wire (message [] (exDir exO) [] (exDir exR) [⟨8, [1, 2, 3, 4]⟩] true true)) = .ok (con exO exR 6) := by
  refine message_decodes 2 0 0 (Or.inl rfl) [] (exDir exO) [] (exDir exR) _ true true ?_ ?_ rfl ?_ ?_
  · refine ⟨?_, ?_, ?_⟩ <;> unfold Attr.Ok <;> decide
  · refine ⟨?_, ?_, ?_⟩ <;> unfold Attr.Ok <;> decide
  · unfold Attr.Ok; decide
  · decide

/-- A message cut anywhere inside an attribute is refused by the scanner: nothing is read beyond the end. -/
theorem cut_attr_bad (a : Attr) (h : a.Ok) (k : Nat) (h0 : 0 < k) (hk : k < a.data.length + 4) :
    next (a.wire.take k) = .bad := by
  obtain ⟨l0, l1, hl, hlv⟩ := le16_val (a.data.length + 4) h.2
  obtain ⟨t0, t1, ht, _⟩ := le16_val a.raw h.1
  unfold Attr.wire
  rw [hl, ht]
  match k, h0, hk with
  | 1, _, _ => rfl
  | 2, _, _ => rfl
  | 3, _, _ => rfl
  | k + 4, _, hk =>
    simp only [List.cons_append, List.nil_append, List.take_succ_cons, next, hlv]
    rw [if_pos]
    simp only [List.length_take, List.length_append]
    omega

example : next ((⟨1, [9, 9, 9]⟩ : Attr).wire.take 6) = .bad := rfl

/-- C81: a message of less than two bytes, and the four bytes of the header alone, are errors. -/
theorem too_short_refused (m : Bytes) (h : m.length < 2 ∨ ∃ fam x y, (fam = 2 ∨ fam = 10) ∧ m = [fam, 0, x, y]) : decode m = .err := by
  rcases h with h | ⟨fam, x, y, hf, rfl⟩
  · match m, h with
    | [], _ => rfl
    | [_], _ => rfl
  · unfold decode
    have hoff : messageOffset fam 0 = 4 := by unfold messageOffset; rw [if_pos ⟨hf, rfl⟩]
    simp [hoff]

end Kindling.Conn.Decode
