import Verif.Conn.Consumer
/-
Reading the netlink socket: from the datagrams of the kernel to messages, namespaces, connections and lookups.
metadata/conntracker/internal/socket.go, align.go, `syscall.ParseNetlinkMessage` of Go, and their use in consumer.go and
conntracker.go.
-/
namespace Kindling.Conn.Socket

open Kindling.Conn.Lookup Kindling.Conn.Decode Kindling.Conn.Consumer

/-- `netlink.Message` (without the length, which is that of the data): `sysToHeader` (socket.go:287-298) keeps all fields. -/
structure Raw where
  ty : Nat
  flags : Nat
  seq : Nat
  pid : Nat
  data : Bytes
deriving DecidableEq

/-- Little endian number of a list of bytes (the byte order of the machine: amd64, arm64). -/
def num : Bytes → Nat
  | [] => 0
  | b :: r => b.toNat + 256 * num r

/-- The bytes from place `i` on, `n` of them. -/
def sub (b : Bytes) (i n : Nat) : Bytes := (b.drop i).take n

theorem length_sub (b : Bytes) (i n : Nat) : (sub b i n).length = min n (b.length - i) := by
  unfold sub; rw [List.length_take, List.length_drop]

theorem align_pos {n : Nat} (h : 16 ≤ n) : 16 ≤ align n := by unfold align; omega

/-- `syscall.ParseNetlinkMessage` (Go, syscall/netlink_linux.go): a header of 16 bytes, the data, padding to a multiple of
four; a length below 16 or beyond the bytes fails the whole read, and fewer than 16 bytes at the end are ignored. -/
def parse (b : Bytes) : Option (List Raw) :=
  if b.length < 16 then some []
  else
    let len := num (sub b 0 4)
    if len < 16 ∨ b.length < align len then none
    else match parse (b.drop (align len)) with
      | none => none
      | some ms => some (⟨num (sub b 4 2), num (sub b 6 2), num (sub b 8 4), num (sub b 12 4), sub b 16 (len - 16)⟩ :: ms)
termination_by b.length
decreasing_by
  rw [List.length_drop]
  have := align_pos (n := num (sub b 0 4)) (by omega)
  omega

/-- The receive buffer after `recvmsg` has written a datagram: cut at the size of the buffer, the rest is what was there
before (socket.go:123-127). -/
def filled (stale d : Bytes) : Bytes := d.take stale.length ++ stale.drop d.length

/-- `ReceiveInto` (socket.go:121-163) for a datagram: the length is rounded up to a multiple of four, which takes in bytes
of the datagram before.  `none` is the error of the parser.  The copy to the buffer of the caller is not needed here. -/
def receiveInto (stale d : Bytes) : Option (List Raw) := parse ((filled stale d).take (align (min d.length stale.length)))

/-- `int32` of four bytes. -/
def int32 (b : Bytes) : Int := if num b < 2147483648 then (num b : Int) else (num b : Int) - 4294967296

/-- `parseNetNS` (socket.go:165-175): level, type and data of the control messages.  `none` is a panic: `&m.Data[0]`.  Four
bytes are read whatever the length of the data; the kernel always sends four. -/
def parseNetNS : List (Nat × Nat × Bytes) → Option Int
  | [] => some 0
  | (l, t, d) :: r => if l ≠ 270 ∨ t ≠ 8 then parseNetNS r else if d = [] then none else some (int32 (d.take 4))

/-- What the receive loop looks at: the type of the header (consumer.go:425-437, message.go:32). -/
def classify (m : Raw) : Msg := if m.ty = 2 then .error m.data else if m.ty = 3 then .done m.data else .data m.data

/-- The reads of a socket, one datagram after the other into the same buffer (consumer.go:405-418).  A read with an error
goes on without messages. -/
def reads : Bytes → List Bytes → List (List Msg)
  | _, [] => []
  | stale, d :: ds => ((receiveInto stale d).getD []).map classify :: reads (filled stale d) ds

/-- All events of a load of the table, registered one after the other (conntracker.go:214-228). -/
def events (limit : Int) (timeout now : Nat) (orphan : Bool) : CSt → List (List Msg) → Option CSt
  | s, [] => some s
  | s, e :: es => match event limit timeout now orphan s (e.map Msg.bytes) with
    | none => none
    | some s' => events limit timeout now orphan s' es

/-- The stream of new connections (consumer.go:145-162, conntracker.go:253-275) while nothing is throttled or compacted. -/
def stream (limit : Int) (timeout now : Nat) (s : CSt) (stale : Bytes) (ds : List Bytes) : Option CSt :=
  events limit timeout now true s (receive true (reads stale ds)).1

/-- `loadInitialState` of what `dumpTable` receives (conntracker.go:214-228, consumer.go:282-317): from the datagrams of the
dump to the cache; `stale` is the new receive buffer. -/
def load (limit : Int) (timeout now : Nat) (s : CSt) (stale : Bytes) (ds : List Bytes) : Option CSt :=
  events limit timeout now false s (receive false (reads stale ds)).1

/-! ### What the kernel sends -/

/-- Spec: the `n` bytes of a number, least first. -/
def le (n : Nat) : Nat → Bytes
  | 0 => []
  | k + 1 => UInt8.ofNat (n % 256) :: le (n / 256) k

/-- Spec: a message on the wire (`struct nlmsghdr`, then the data). -/
def wireOf (m : Raw) : Bytes :=
  le (m.data.length + 16) 4 ++ le m.ty 2 ++ le m.flags 2 ++ le m.seq 4 ++ le m.pid 4 ++ m.data

def Raw.Ok (m : Raw) : Prop := m.ty < 65536 ∧ m.flags < 65536 ∧ m.seq < 4294967296 ∧ m.pid < 4294967296 ∧ m.data.length + 16 < 4294967296

/-- Spec: a datagram with these messages: each padded to a multiple of four with any bytes, the last one maybe not. -/
inductive Sends : List Raw → Bytes → Prop
  | nil : Sends [] []
  | last (m : Raw) : m.Ok → Sends [m] (wireOf m)
  | cons (m : Raw) (pad : Bytes) (ms : List Raw) (d : Bytes) : m.Ok → pad.length = align m.data.length - m.data.length →
      Sends ms d → Sends (m :: ms) (wireOf m ++ pad ++ d)

theorem length_le (n k : Nat) : (le n k).length = k := by
  induction k generalizing n with
  | zero => rfl
  | succ k ih => rw [le, List.length_cons, ih]

theorem num_le (n k : Nat) (h : n < 256 ^ k) : num (le n k) = n := by
  induction k generalizing n with
  | zero => simp [le, num]; omega
  | succ k ih =>
    rw [le, num, ih (n / 256) (by rw [Nat.pow_succ] at h; omega), UInt8.toNat_ofNat']
    omega

theorem length_wireOf (m : Raw) : (wireOf m).length = m.data.length + 16 := by
  simp only [wireOf, List.length_append, length_le]
  omega

theorem align16 (n : Nat) : align (n + 16) = align n + 16 := by unfold align; omega

theorem sub_skip (a b : Bytes) (i n : Nat) (h : a.length ≤ i) : sub (a ++ b) i n = sub b (i - a.length) n := by
  unfold sub
  rw [List.drop_append, List.drop_eq_nil_of_le h, List.nil_append]

theorem sub_here (a b : Bytes) (n : Nat) (h : a.length = n) : sub (a ++ b) 0 n = a := by
  unfold sub
  rw [List.drop_zero, ← h, List.take_left]

/-- A message, its padding and whatever follows: the parser takes the message off. -/
theorem parse_cons (m : Raw) (pad rest : Bytes) (hm : m.Ok) (hp : pad.length = align m.data.length - m.data.length) :
    parse (wireOf m ++ pad ++ rest) = (parse rest).map (m :: ·) := by
  obtain ⟨h1, h2, h3, h4, h5⟩ := hm
  have hal := le_align m.data.length
  have hlen : (wireOf m ++ pad).length = align (m.data.length + 16) := by
    rw [List.length_append, length_wireOf, hp, align16]; omega
  have hw : wireOf m ++ pad ++ rest = le (m.data.length + 16) 4 ++ (le m.ty 2 ++ (le m.flags 2 ++ (le m.seq 4 ++ (le m.pid 4 ++ (m.data ++ (pad ++ rest)))))) := by
    simp only [wireOf, List.append_assoc]
  have e0 : num (sub (wireOf m ++ pad ++ rest) 0 4) = m.data.length + 16 := by
    rw [hw, sub_here _ _ _ (length_le _ _), num_le _ _ (by simpa using h5)]
  have e1 : num (sub (wireOf m ++ pad ++ rest) 4 2) = m.ty := by
    rw [hw, sub_skip _ _ _ _ (by rw [length_le]; omega), length_le, sub_here _ _ _ (length_le _ _), num_le _ _ (by simpa using h1)]
  have e2 : num (sub (wireOf m ++ pad ++ rest) 6 2) = m.flags := by
    rw [hw, sub_skip _ _ _ _ (by rw [length_le]; omega), length_le, sub_skip _ _ _ _ (by rw [length_le]; omega), length_le,
      sub_here _ _ _ (length_le _ _), num_le _ _ (by simpa using h2)]
  have e3 : num (sub (wireOf m ++ pad ++ rest) 8 4) = m.seq := by
    rw [hw, sub_skip _ _ _ _ (by rw [length_le]; omega), length_le, sub_skip _ _ _ _ (by rw [length_le]; omega), length_le,
      sub_skip _ _ _ _ (by rw [length_le]; omega), length_le, sub_here _ _ _ (length_le _ _), num_le _ _ (by simpa using h3)]
  have e4 : num (sub (wireOf m ++ pad ++ rest) 12 4) = m.pid := by
    rw [hw, sub_skip _ _ _ _ (by rw [length_le]; omega), length_le, sub_skip _ _ _ _ (by rw [length_le]; omega), length_le,
      sub_skip _ _ _ _ (by rw [length_le]; omega), length_le, sub_skip _ _ _ _ (by rw [length_le]; omega), length_le,
      sub_here _ _ _ (length_le _ _), num_le _ _ (by simpa using h4)]
  have e5 : sub (wireOf m ++ pad ++ rest) 16 (m.data.length + 16 - 16) = m.data := by
    rw [hw, sub_skip _ _ _ _ (by rw [length_le]; omega), length_le, sub_skip _ _ _ _ (by rw [length_le]; omega), length_le,
      sub_skip _ _ _ _ (by rw [length_le]; omega), length_le, sub_skip _ _ _ _ (by rw [length_le]; omega), length_le,
      sub_skip _ _ _ _ (by rw [length_le]; omega), length_le, Nat.add_sub_cancel]
    exact sub_here _ _ _ rfl
  rw [parse, if_neg (by rw [List.length_append, hlen, align16]; omega)]
  simp only [e0, e1, e2, e3, e4, e5]
  rw [if_neg (by rw [List.length_append, hlen]; omega), ← hlen, List.drop_left]
  cases parse rest <;> rfl

theorem align_align (n : Nat) : align (align n) = align n := by unfold align; omega
theorem align_add_align (a n : Nat) : align (align a + n) = align a + align n := by unfold align; omega
theorem align_mono {a b : Nat} (h : a ≤ b) : align a ≤ align b := by unfold align; omega

/-- A datagram, followed by bytes up to the next multiple of four: exactly its messages. -/
theorem parse_sends {ms : List Raw} {d : Bytes} (h : Sends ms d) (fill : Bytes) (hf : fill.length = align d.length - d.length) :
    parse (d ++ fill) = some ms := by
  induction h with
  | nil =>
    have : fill = [] := by apply List.eq_nil_of_length_eq_zero; rw [hf]; rfl
    rw [this, List.nil_append, parse, if_pos (by simp)]
  | last m hm =>
    have := parse_cons m fill [] hm (by rw [hf, length_wireOf, align16]; omega)
    rw [List.append_nil] at this
    rw [this, parse, if_pos (by simp)]
    rfl
  | cons m pad ms d hm hp hd ih =>
    have hal := le_align m.data.length
    have hlen : (wireOf m ++ pad).length = align (m.data.length + 16) := by
      rw [List.length_append, length_wireOf, hp, align16]; omega
    rw [List.append_assoc (wireOf m ++ pad), parse_cons m pad (d ++ fill) hm hp, ih (by
      rw [hf, List.length_append, hlen, align_add_align]; omega)]
    rfl

/-- Reading gives exactly the messages of the datagram, with all header fields and data, whatever bytes earlier datagrams
have left in the receive buffer, if the datagram fits into the buffer. -/
theorem receive_exact_partial {ms : List Raw} {d : Bytes} (h : Sends ms d) (stale : Bytes) (h4 : align stale.length = stale.length)
    (hfit : d.length ≤ stale.length) : receiveInto stale d = some ms := by
  unfold receiveInto filled
  have hal := le_align d.length
  have hle := align_mono hfit
  rw [h4] at hle
  rw [Nat.min_eq_left hfit, List.take_of_length_le hfit, List.take_append, List.take_of_length_le hal]
  refine parse_sends h _ ?_
  rw [List.length_take, List.length_drop]
  omega

/-- The messages of a read are a prefix of what was read: nothing is invented, and less than a header is left over. -/
theorem parse_sound {b : Bytes} {ms : List Raw} (h : parse b = some ms) (h4 : align b.length = b.length) :
    ∃ d tail, Sends ms d ∧ b = d ++ tail ∧ tail.length < 16 := by
  induction hn : b.length using Nat.strongRecOn generalizing b ms with
  | _ n ih =>
  rw [parse] at h
  split at h
  · cases h
    exact ⟨[], b, .nil, rfl, by assumption⟩
  · rename_i hb
    simp only at h
    split at h
    · cases h
    · rename_i hlen
      split at h
      · cases h
      · rename_i ms' hms
        cases h
        have hge : 16 ≤ num (sub b 0 4) := by omega
        have hle : align (num (sub b 0 4)) ≤ b.length := by omega
        have hpos := align_pos hge
        have hla := le_align (num (sub b 0 4))
        obtain ⟨d, tail, hs, hd, ht⟩ := ih (b.drop (align (num (sub b 0 4)))).length (by rw [List.length_drop]; omega) hms
          (by rw [List.length_drop]; unfold align at *; omega) rfl
        have hdl : (sub b 16 (num (sub b 0 4) - 16)).length = num (sub b 0 4) - 16 := by
          rw [length_sub]; omega
        have hnum : ∀ x : Bytes, num x < 256 ^ x.length ∧ le (num x) x.length = x := by
          intro x
          induction x with
          | nil => simp [num, le]
          | cons a r ihx =>
            have := a.toNat_lt
            rw [List.length_cons]
            refine ⟨by rw [num, Nat.pow_succ]; omega, ?_⟩
            rw [num, le, show (a.toNat + 256 * num r) / 256 = num r by omega, show (a.toNat + 256 * num r) % 256 = a.toNat by omega, ihx.2, UInt8.ofNat_toNat]
        have hsl : ∀ i k, i + k ≤ 16 → (sub b i k).length = k := by
          intro i k hik; rw [length_sub]; omega
        have hfield : ∀ i k, i + k ≤ 16 → num (sub b i k) < 256 ^ k ∧ le (num (sub b i k)) k = sub b i k := by
          intro i k hik
          have := hnum (sub b i k)
          rwa [hsl i k hik] at this
        have hcut : ∀ i k, b.drop i = sub b i k ++ b.drop (i + k) := by
          intro i k; unfold sub; rw [← List.drop_drop, List.take_append_drop]
        have hb4 := (hfield 0 4 (by omega)).1
        refine ⟨wireOf _ ++ sub b (num (sub b 0 4)) (align (num (sub b 0 4)) - num (sub b 0 4)) ++ d, tail, Sends.cons _ _ _ _ ?_ ?_ hs, ?_, ht⟩
        · refine ⟨by simpa using (hfield 4 2 (by omega)).1, by simpa using (hfield 6 2 (by omega)).1, by simpa using (hfield 8 4 (by omega)).1,
            by simpa using (hfield 12 4 (by omega)).1, ?_⟩
          show (sub b 16 (num (sub b 0 4) - 16)).length + 16 < 4294967296
          rw [hdl]
          have : (256 : Nat) ^ 4 = 4294967296 := by decide
          omega
        · show (sub b (num (sub b 0 4)) _).length = align (sub b 16 (num (sub b 0 4) - 16)).length - (sub b 16 (num (sub b 0 4) - 16)).length
          rw [hdl]
          have : align (num (sub b 0 4)) = align (num (sub b 0 4) - 16) + 16 := by rw [← align16, Nat.sub_add_cancel hge]
          rw [length_sub]
          omega
        · rw [List.append_assoc, List.append_assoc, ← hd]
          simp only [wireOf, hdl, Nat.sub_add_cancel hge, (hfield 0 4 (by omega)).2, (hfield 4 2 (by omega)).2, (hfield 6 2 (by omega)).2,
            (hfield 8 4 (by omega)).2, (hfield 12 4 (by omega)).2, List.append_assoc]
          conv => lhs; rw [← List.drop_zero (l := b)]
          rw [hcut 0 4, hcut (0 + 4) 2, hcut (0 + 4 + 2) 2, hcut (0 + 4 + 2 + 2) 4, hcut (0 + 4 + 2 + 2 + 4) 4,
            hcut (0 + 4 + 2 + 2 + 4 + 4) (num (sub b 0 4) - 16)]
          rw [show 0 + 4 + 2 + 2 + 4 + 4 + (num (sub b 0 4) - 16) = num (sub b 0 4) by omega]
          rw [hcut (num (sub b 0 4)) (align (num (sub b 0 4)) - num (sub b 0 4)),
            show num (sub b 0 4) + (align (num (sub b 0 4)) - num (sub b 0 4)) = align (num (sub b 0 4)) by omega]

/-- Finding: a datagram larger than the receive buffer of 32 KB, cut within the data of a message: all its messages are lost,
also those that were received whole. -/
theorem cut_lost {ms : List Raw} {d : Bytes} (h : Sends ms d) (hd : align d.length = d.length) (m : Raw) (hm : m.Ok) (rest stale : Bytes)
    (h4 : align stale.length = stale.length) (h1 : d.length + 16 ≤ stale.length) (h2 : stale.length < d.length + 16 + m.data.length) :
    receiveInto stale (d ++ (wireOf m ++ rest)) = none := by
  have hlong : stale.length ≤ (d ++ (wireOf m ++ rest)).length := by
    simp only [List.length_append, length_wireOf]; omega
  have hfil : filled stale (d ++ (wireOf m ++ rest)) = d ++ (wireOf m).take (stale.length - d.length) := by
    unfold filled
    rw [List.drop_eq_nil_of_le hlong, List.append_nil, List.take_append, List.take_of_length_le (by omega), List.take_append,
      show stale.length - d.length - (wireOf m).length = 0 by rw [length_wireOf]; omega, List.take_zero, List.append_nil]
  unfold receiveInto
  rw [Nat.min_eq_right hlong, h4, hfil, List.take_of_length_le (by
    rw [List.length_append, List.length_take, length_wireOf]; omega)]
  have hbad : parse ((wireOf m).take (stale.length - d.length)) = none := by
    obtain ⟨_, _, _, _, h5⟩ := hm
    have hlen : ((wireOf m).take (stale.length - d.length)).length = stale.length - d.length := by
      rw [List.length_take, length_wireOf]; omega
    have e0 : num (sub ((wireOf m).take (stale.length - d.length)) 0 4) = m.data.length + 16 := by
      unfold sub
      rw [List.drop_zero, List.take_take, Nat.min_eq_left (by omega)]
      have : (wireOf m).take 4 = le (m.data.length + 16) 4 := by
        simp only [wireOf, List.append_assoc]
        exact sub_here _ _ _ (length_le _ _)
      rw [this, num_le _ _ (by simpa using h5)]
    rw [parse, if_neg (by omega)]
    simp only [e0]
    rw [if_pos]
    right
    have := le_align (m.data.length + 16)
    omega
  clear h1 h2 hlong hfil
  generalize (wireOf m).take (stale.length - d.length) = x at hbad
  induction h with
  | nil => exact hbad
  | last m' hm' =>
    have hp : ([] : Bytes).length = align m'.data.length - m'.data.length := by
      rw [length_wireOf, align16] at hd
      simp only [List.length_nil]; omega
    have := parse_cons m' [] x hm' hp
    rw [List.append_nil] at this
    rw [this, hbad]
    rfl
  | cons m' pad ms d hm' hp hs ih =>
    have hal := le_align m'.data.length
    rw [List.append_assoc, parse_cons m' pad _ hm' hp, ih (by
      rw [List.length_append, List.length_append, length_wireOf, hp, show m'.data.length + 16 + (align m'.data.length - m'.data.length) = align (m'.data.length + 16) by
        rw [align16]; omega, align_add_align] at hd
      omega)]
    rfl

/-! ### Namespaces -/

/-- Spec: the number `n` of a namespace as a control message. -/
def nsMessage (n : Int) : Nat × Nat × Bytes := (270, 8, le (if n < 0 then (n + 4294967296).toNat else n.toNat) 4)

/-- The namespace of a datagram is that of its control message, wherever among others it stands, and 0 without one. -/
theorem netns_exact (n : Int) (h1 : -2147483648 ≤ n) (h2 : n < 2147483648) (pre post : List (Nat × Nat × Bytes))
    (hpre : ∀ m ∈ pre, ¬ (m.1 = 270 ∧ m.2.1 = 8)) :
    parseNetNS (pre ++ nsMessage n :: post) = some n ∧ parseNetNS pre = some 0 := by
  induction pre with
  | nil =>
    refine ⟨?_, rfl⟩
    simp only [List.nil_append, nsMessage, parseNetNS]
    rw [if_neg (by simp), if_neg (by simp [le]), List.take_of_length_le (by rw [length_le]; omega)]
    unfold int32
    by_cases hn : n < 0
    · rw [if_pos hn, num_le _ _ (by rw [show (256 : Nat) ^ 4 = 4294967296 by decide]; omega), if_neg (by omega)]
      congr 1
      omega
    · rw [if_neg hn, num_le _ _ (by rw [show (256 : Nat) ^ 4 = 4294967296 by decide]; omega), if_pos (by omega)]
      congr 1
      omega
  | cons m r ih =>
    obtain ⟨l, t, d⟩ := m
    have hm := hpre (l, t, d) (by simp)
    have := ih (fun x hx => hpre x (List.mem_cons_of_mem _ hx))
    have hc : l ≠ 270 ∨ t ≠ 8 := by
      by_cases hl : l = 270
      · exact Or.inr (fun ht => hm ⟨hl, ht⟩)
      · exact Or.inl hl
    simp only [List.cons_append, parseNetNS, if_pos hc]
    exact this

/-! ### From datagrams to lookups -/

/-- The messages of a datagram of a dump: new connections, and at the very end the end of the dump. -/
def Carries (d : Bytes) (ks : List KMsg) (fin : Bool) : Prop := ∃ ms, Sends ms d ∧
  ∃ hs : List Raw, hs.map (·.data) = ks.map KMsg.bytes ∧ (∀ h ∈ hs, h.ty ≠ 2 ∧ h.ty ≠ 3) ∧
    if fin then ∃ e : Raw, e.ty = 3 ∧ ms = hs ++ [e] else ms = hs

theorem filled_length (stale d : Bytes) : (filled stale d).length = stale.length := by
  unfold filled
  rw [List.length_append, List.length_take, List.length_drop]
  omega

/-- Spec: a dump: any number of datagrams with connections, the last one with the end. -/
def Dump : List (Bytes × List KMsg) → Prop
  | [] => False
  | [p] => Carries p.1 p.2 true
  | p :: q :: r => Carries p.1 p.2 false ∧ Dump (q :: r)

theorem classify_data {hs : List Raw} (h : ∀ x ∈ hs, x.ty ≠ 2 ∧ x.ty ≠ 3) : hs.map classify = hs.map (fun x => Msg.data x.data) := by
  apply List.map_congr_left
  intro x hx
  unfold classify
  rw [if_neg (h x hx).1, if_neg (h x hx).2]

theorem events_append (limit : Int) (timeout now : Nat) (orphan : Bool) (s : CSt) (ks : List KMsg) (hk : ∀ m ∈ ks, m.Ok) (es : List (Nat × Ev)) :
    (match event limit timeout now orphan s (ks.map KMsg.bytes) with
      | none => none
      | some s' => Lookup.run limit timeout s' es) =
    Lookup.run limit timeout s (ks.map (fun m => (now, Ev.con m.o.flow m.r.flow m.o.num orphan)) ++ es) := by
  rw [event_runs limit timeout now orphan s ks hk]
  clear hk
  induction ks generalizing s with
  | nil => rfl
  | cons m r ih =>
    simp only [List.map_cons, List.cons_append, Lookup.run]
    cases Lookup.step limit timeout s (now, Ev.con m.o.flow m.r.flow m.o.num orphan).1 (now, Ev.con m.o.flow m.r.flow m.o.num orphan).2 with
    | none => rfl
    | some s' => exact ih s'

/-- The dump of a table, from the bytes on the socket to the cache: it ends at its end message, whatever comes after it, and
the cache is as if exactly the connections of all its datagrams had been registered in order, so that `dnat_sound` and
`dnat_found` speak of lookups after a dump. -/
theorem load_runs (limit : Int) (timeout now : Nat) (s : CSt) (stale : Bytes) (h4 : align stale.length = stale.length)
    (ps : List (Bytes × List KMsg)) (later : List Bytes) (hd : Dump ps) (hk : ∀ p ∈ ps, ∀ m ∈ p.2, m.Ok) (hfit : ∀ p ∈ ps, p.1.length ≤ stale.length) :
    (receive false (reads stale (ps.map (·.1) ++ later))).2 = true ∧
    load limit timeout now s stale (ps.map (·.1) ++ later) =
      Lookup.run limit timeout s ((ps.flatMap (·.2)).map (fun m => (now, Ev.con m.o.flow m.r.flow m.o.num false))) := by
  have hbytes : ∀ (hs : List Raw) (ks : List KMsg), hs.map (·.data) = ks.map KMsg.bytes →
      (hs.map (fun x => Msg.data x.data)).map Msg.bytes = ks.map KMsg.bytes := by
    intro hs ks h
    rw [List.map_map, ← h]
    rfl
  have hnb : ∀ hs : List Raw, (hs.map (fun x => Msg.data x.data)).any bad = false := by
    intro hs
    rw [List.any_eq_false]
    intro x hx
    obtain ⟨y, -, rfl⟩ := List.mem_map.1 hx
    simp [bad]
  unfold load
  induction ps generalizing s stale with
  | nil => exact hd.elim
  | cons p r ih =>
    cases r with
    | nil =>
      obtain ⟨ms, hs, hs', h1, h2, e, h3, rfl⟩ := hd
      have hr := receive_exact_partial hs stale h4 (hfit p (by simp))
      have hb : batch (List.map classify (hs' ++ [e])) = some (hs'.map (fun x => Msg.data x.data), true) := by
        rw [List.map_append, classify_data h2, List.map_singleton, show classify e = .done e.data by unfold classify; rw [h3]; rfl]
        unfold batch
        rw [if_neg (by rw [List.any_append, hnb]; simp [bad])]
        simp
      simp only [List.map_cons, List.map_nil, List.cons_append, List.nil_append, reads, hr, Option.getD_some, receive, hb,
        Bool.not_false, Bool.and_self, if_true, true_and]
      have := events_append limit timeout now false s p.2 (hk p (by simp)) []
      rw [List.append_nil] at this
      rw [show List.flatMap (fun x : Bytes × List KMsg => x.2) [p] = p.2 by simp, ← this]
      simp only [events, hbytes hs' p.2 h1]
      cases event limit timeout now false s (p.2.map KMsg.bytes) <;> rfl
    | cons q r =>
      obtain ⟨⟨ms, hs, hs', h1, h2, rfl⟩, hd'⟩ := hd
      have hr := receive_exact_partial hs stale h4 (hfit p (by simp))
      have hb : batch (List.map classify ms) = some (ms.map (fun x => Msg.data x.data), false) := by
        rw [classify_data h2]
        unfold batch
        rw [if_neg (by rw [hnb]; simp)]
        split
        · rename_i b hl
          obtain ⟨y, -, hy⟩ := List.mem_map.1 (List.mem_of_getLast? hl)
          cases hy
        · rfl
      have hih := fun s' => ih s' (filled stale p.1) (by rw [filled_length]; exact h4) hd' (fun x hx => hk x (List.mem_cons_of_mem _ hx))
        (fun x hx => by rw [filled_length]; exact hfit x (List.mem_cons_of_mem _ hx))
      rw [List.map_cons, List.cons_append, reads, hr, Option.getD_some, receive, hb]
      simp only [Bool.false_and, Bool.false_eq_true, if_false]
      refine ⟨(hih s).1, ?_⟩
      rw [List.flatMap_cons, List.map_append, ← events_append limit timeout now false s p.2 (hk p (by simp)), events, hbytes ms p.2 h1]
      cases event limit timeout now false s (p.2.map KMsg.bytes) with
      | none => rfl
      | some s' => exact (hih s').2

/-- The same for the stream: every connection of every datagram is registered, in order, and the loop goes on. -/
theorem stream_runs (limit : Int) (timeout now : Nat) (s : CSt) (stale : Bytes) (h4 : align stale.length = stale.length)
    (ps : List (Bytes × List KMsg)) (hd : ∀ p ∈ ps, Carries p.1 p.2 false) (hk : ∀ p ∈ ps, ∀ m ∈ p.2, m.Ok)
    (hfit : ∀ p ∈ ps, p.1.length ≤ stale.length) :
    (receive true (reads stale (ps.map (·.1)))).2 = false ∧
    stream limit timeout now s stale (ps.map (·.1)) =
      Lookup.run limit timeout s ((ps.flatMap (·.2)).map (fun m => (now, Ev.con m.o.flow m.r.flow m.o.num true))) := by
  unfold stream
  induction ps generalizing s stale with
  | nil => exact ⟨rfl, rfl⟩
  | cons p r ih =>
    obtain ⟨ms, hs, hs', h1, h2, rfl⟩ := hd p (by simp)
    have hr := receive_exact_partial hs stale h4 (hfit p (by simp))
    have hb : batch (List.map classify ms) = some (ms.map (fun x => Msg.data x.data), false) := by
      rw [classify_data h2]
      unfold batch
      rw [if_neg (by
        rw [Bool.not_eq_true, List.any_eq_false]
        intro x hx
        obtain ⟨y, -, rfl⟩ := List.mem_map.1 hx
        simp [bad])]
      split
      · rename_i b hl
        obtain ⟨y, -, hy⟩ := List.mem_map.1 (List.mem_of_getLast? hl)
        cases hy
      · rfl
    have hih := fun s' => ih s' (filled stale p.1) (by rw [filled_length]; exact h4) (fun x hx => hd x (List.mem_cons_of_mem _ hx))
      (fun x hx => hk x (List.mem_cons_of_mem _ hx)) (fun x hx => by rw [filled_length]; exact hfit x (List.mem_cons_of_mem _ hx))
    rw [List.map_cons, reads, hr, Option.getD_some, receive, hb]
    simp only [Bool.false_and, Bool.false_eq_true, if_false]
    refine ⟨(hih s).1, ?_⟩
    have hbytes : (ms.map (fun x => Msg.data x.data)).map Msg.bytes = p.2.map KMsg.bytes := by
      rw [List.map_map, ← h1]
      rfl
    rw [List.flatMap_cons, List.map_append, ← events_append limit timeout now true s p.2 (hk p (by simp)), events, hbytes]
    cases event limit timeout now true s (p.2.map KMsg.bytes) with
    | none => rfl
    | some s' => exact (hih s').2

/-- Finding: the namespace of a connection is read but is not part of the key of the cache.  If the tables of two namespaces
have a connection between the same addresses and ports, a lookup for the one dumped first gets the translation of the other:
whatever `earlier` says. -/
theorem namespaces_collide (limit : Int) (timeout now : Nat) (earlier : List KMsg) (o r : Flow) (udp : Bool)
    (hok : o.Ok) (hrok : r.Ok) (hn : ¬ Opposite o r) (hne : o.key udp ≠ r.key udp) (hl : 1 < limit)
    (hnat : ¬ (ipEqual o.dst r.src = true ∧ r.sport = o.dport))
    (c : Stats) (hcs : IsIp c.source) (hcd : IsIp c.dest) (hc1 : ipEqual c.source o.src = true) (hc2 : ipEqual c.dest o.dst = true)
    (hc3 : c.sport = o.sport) (hc4 : c.dport = o.dport) (hc5 : c.typ = if udp then 1 else 0) :
    ∃ s s', Lookup.run limit timeout Cache.init
        (earlier.map (fun m => (now, Ev.con m.o.flow m.r.flow m.o.num false)) ++ [(now, .con o r (protoNum udp) false)]) = some s ∧
      getDNAT limit s c = some (s', some r.transl) := by
  have := dnat_found limit timeout (earlier.map (fun m => (now, Ev.con m.o.flow m.r.flow m.o.num false))) [] now o r udp false hok hrok hn
    (by
      rw [List.map_append, List.map_map]
      refine List.pairwise_append.2 ⟨?_, by simp, ?_⟩
      · exact List.pairwise_map.2 (List.pairwise_of_forall (fun _ _ => Nat.le_refl _))
      · intro a ha b hb
        obtain ⟨_, _, rfl⟩ := List.mem_map.1 ha
        rw [List.mem_map] at hb
        obtain ⟨x, hx, rfl⟩ := hb
        rw [List.mem_singleton] at hx
        subst hx
        exact Nat.le_refl _)
    [r.key udp] (by simpa using hne) (by simp) (by simpa using hl) (by simp) (by simp) c hcs hcd hc1 hc2 hc3 hc4 hc5
  rw [if_neg hnat] at this
  exact this

/-! ### Examples -/

/-- A read of two messages, the first with padding; the buffer holds bytes of an earlier read. -/
def twoMsgs : List Raw := [⟨256, 2, 1, 77, [1, 2, 3, 4, 5]⟩, ⟨3, 2, 1, 77, [9]⟩]

example : ∃ d, Sends twoMsgs d ∧ d.length = 41 ∧ receiveInto (List.replicate 64 255) d = some twoMsgs := by
  refine ⟨wireOf ⟨256, 2, 1, 77, [1, 2, 3, 4, 5]⟩ ++ [7, 7, 7] ++ wireOf ⟨3, 2, 1, 77, [9]⟩, ?_, rfl, ?_⟩
  · exact .cons _ _ _ _ (by simp [Raw.Ok]) rfl (.last _ (by simp [Raw.Ok]))
  · exact receive_exact_partial (.cons _ _ _ _ (by simp [Raw.Ok]) rfl (.last _ (by simp [Raw.Ok]))) _ rfl (by decide)

example : receiveInto (List.replicate 32 0) (wireOf ⟨256, 2, 1, 77, List.replicate 17 1⟩) = none := by
  have := cut_lost .nil rfl ⟨256, 2, 1, 77, List.replicate 17 1⟩ (by simp [Raw.Ok]) [] (List.replicate 32 0) rfl (by decide) (by decide)
  rw [List.append_nil, List.nil_append] at this
  exact this

/-- A kernel message, and a dump of two datagrams with it. -/
def exMsg : KMsg := ⟨2, 0, 0, [], exDir exO, [], exDir exR, [⟨8, [1, 2, 3, 4]⟩], true, true⟩

theorem exMsg_ok : exMsg.Ok := by
  refine ⟨Or.inl rfl, ⟨?_, ?_, ?_⟩, ⟨?_, ?_, ?_⟩, rfl, ?_, ?_⟩ <;> first | (unfold Attr.Ok; decide) | decide

theorem dump_exists (m : KMsg) (h1 : m.bytes.length + 16 < 4294967296) (h2 : align m.bytes.length = m.bytes.length) :
    ∃ ps, Dump ps ∧ ps.flatMap (·.2) = [m, m, m] := by
  have hok : Raw.Ok ⟨256, 2, 1, 77, m.bytes⟩ := ⟨by simp, by simp, by simp, by simp, h1⟩
  have hpad : ([] : Bytes).length = align m.bytes.length - m.bytes.length := by rw [h2, Nat.sub_self]; rfl
  refine ⟨[(wireOf ⟨256, 2, 1, 77, m.bytes⟩ ++ [] ++ wireOf ⟨256, 2, 1, 77, m.bytes⟩, [m, m]),
    (wireOf ⟨256, 2, 1, 77, m.bytes⟩ ++ [] ++ wireOf ⟨3, 2, 1, 77, [0]⟩, [m])], ⟨?_, ?_⟩, rfl⟩
  · exact ⟨_, .cons _ _ _ _ hok hpad (.last _ hok), _, rfl, by simp, rfl⟩
  · exact ⟨_, .cons _ _ _ _ hok hpad (.last _ (by simp [Raw.Ok])), [⟨256, 2, 1, 77, m.bytes⟩], rfl, by simp, _, rfl, rfl⟩

example : ∃ ps, Dump ps ∧ ps.flatMap (·.2) = [exMsg, exMsg, exMsg] := dump_exists exMsg (by decide +kernel) (by decide +kernel)

example : parseNetNS [(1, 2, [1]), nsMessage (-1)] = some (-1) := by decide
example : parseNetNS [(270, 8, [])] = none := by decide

/-- Of the data of the control message only the first four bytes count. -/
theorem netns_first_four (d junk : Bytes) (h : d.length = 4) (post : List (Nat × Nat × Bytes)) :
    parseNetNS ((270, 8, d ++ junk) :: post) = some (int32 d) := by
  simp only [parseNetNS]
  rw [if_neg (by simp), if_neg (by intro he; rw [(List.append_eq_nil_iff.1 he).1] at h; cases h), List.take_left' h]

end Kindling.Conn.Socket
