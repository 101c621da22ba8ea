import Verif.Basic
/-
/proc/<pid>/net/tcp as read by the TCP connect sweep: tcpconnectanalyzer/internal/net_ip_socket.go and
the address text of events, model/kindling_event_helper.go.

Simplified: a line is given as its fields (strings.Fields); an address is the list of its bytes rather than
their dotted text (net.IP.String of a 4-byte address is the same function on both sides).
-/
namespace Kindling.Tcp.Proc

/-- One hexadecimal digit (encoding/hex fromHexChar; strconv digits below base 16). -/
def hexVal (c : Char) : Option Nat :=
  if '0' ≤ c ∧ c ≤ '9' then some (c.toNat - 48)
  else if 'a' ≤ c ∧ c ≤ 'f' then some (c.toNat - 97 + 10)
  else if 'A' ≤ c ∧ c ≤ 'F' then some (c.toNat - 65 + 10)
  else none

/-- `hex.DecodeString`: odd lengths and other characters are errors. -/
def hexDecode : List Char → Option (List Nat)
  | [] => some []
  | [_] => none
  | a :: b :: r => do
    let x ← hexVal a
    let y ← hexVal b
    let t ← hexDecode r
    some ((x * 16 + y) :: t)

/-- `parseIP` (net_ip_socket.go:102-122). -/
def parseIP (s : List Char) : Option (List Nat) :=
  match hexDecode s with
  | some [b0, b1, b2, b3] => some [b3, b2, b1, b0]
  | some [b0, b1, b2, b3, b4, b5, b6, b7, b8, b9, b10, b11, b12, b13, b14, b15] =>
    some [b3, b2, b1, b0, b7, b6, b5, b4, b11, b10, b9, b8, b15, b14, b13, b12]
  | _ => none

def uintLoop (n : Nat) : List Char → Option Nat
  | [] => some n
  | c :: r => do
    let d ← hexVal c
    if n * 16 + d ≥ 2 ^ 64 then none else uintLoop (n * 16 + d) r

/-- `strconv.ParseUint(s, 16, 64)`. -/
def parseUint (s : List Char) : Option Nat := if s = [] then none else uintLoop 0 s

/-- `strings.Split(s, ":")`. -/
def splitColon : List Char → List (List Char)
  | [] => [[]]
  | c :: r => if c = ':' then [] :: splitColon r else match splitColon r with
    | [] => [[c]]
    | h :: t => (c :: h) :: t

/-- An `address:port` field (net_ip_socket.go:136-145, 148-157). -/
def parseAddr (s : List Char) : Option (List Nat × Nat) :=
  match splitColon s with
  | [a, p] => do
    let ip ← parseIP a
    let port ← parseUint p
    some (ip, port)
  | _ => none

/-- `SocketKey` (net_ip_socket.go:43-48). -/
structure SKey where
  lip : List Nat
  lport : Nat
  rip : List Nat
  rport : Nat
deriving DecidableEq, Repr

/-- `parseNetIPSocketLine` (net_ip_socket.go:125-163). -/
def parseLine (fields : List (List Char)) : Option (SKey × List Char) :=
  if fields.length < 10 then none
  else do
    let l ← parseAddr (fields.getD 1 [])
    let r ← parseAddr (fields.getD 2 [])
    some (⟨l.1, l.2, r.1, r.2⟩, fields.getD 3 [])

def fileLoop (m : AMap SKey (List Char)) : List (List (List Char)) → Option (AMap SKey (List Char))
  | [] => some m
  | f :: r => match parseLine f with
    | none => none
    | some (k, st) => fileLoop (m.set k st) r

/-- `newNetIPSocket` (net_ip_socket.go:65-97): the first line is the header. -/
def parseFile (lines : List (List (List Char))) : Option (AMap SKey (List Char)) := fileLoop [] lines.tail

/-- `IPLong2String` (kindling_event_helper.go:221-233): the bytes of the address, the low byte first. -/
def ipLong (i : Nat) : List Nat := [i % 256, i / 256 % 256, i / 65536 % 256, i / 16777216 % 256]

/-! ### The kernel's side: what the file looks like (net/ipv4/tcp_ipv4.c, `"%08X:%04X %08X:%04X %02X ..."`) -/

def hexDigit (d : Nat) : Char := if d < 10 then Char.ofNat (48 + d) else Char.ofNat (55 + d)

/-- `%0nX` of a number with at most `n` digits. -/
def hexN : Nat → Nat → List Char
  | 0, _ => []
  | n + 1, v => hexN n (v / 16) ++ [hexDigit (v % 16)]

/-- A socket: addresses as the 32-bit words the kernel prints and the events carry. -/
structure Sock where
  sip : Nat
  sport : Nat
  dip : Nat
  dport : Nat
  st : Nat

def Sock.Ok (s : Sock) : Prop := s.sip < 2 ^ 32 ∧ s.dip < 2 ^ 32 ∧ s.sport < 2 ^ 16 ∧ s.dport < 2 ^ 16

def addrText (ip port : Nat) : List Char := hexN 8 ip ++ ':' :: hexN 4 port

/-- A line: number, the addresses, the state, and at least six further fields. -/
def IsLine (s : Sock) (f : List (List Char)) : Prop :=
  ∃ sl rest, f = sl :: addrText s.sip s.sport :: addrText s.dip s.dport :: hexN 2 s.st :: rest ∧ 6 ≤ rest.length

/-- The key under which the sweep looks a connection up (connection_stats.go:53-60). -/
def Sock.key (s : Sock) : SKey := ⟨ipLong s.sip, s.sport, ipLong s.dip, s.dport⟩

theorem hexVal_digit (d : Nat) (h : d < 16) : hexVal (hexDigit d) = some d := by
  have : ∀ d : Fin 16, hexVal (hexDigit d.1) = some d.1 := by decide
  exact this ⟨d, h⟩

theorem digit_ne_colon (d : Nat) (h : d < 16) : hexDigit d ≠ ':' := by
  have : ∀ d : Fin 16, hexDigit d.1 ≠ ':' := by decide
  exact this ⟨d, h⟩

theorem hexN_no_colon (n v : Nat) : ':' ∉ hexN n v := by
  induction n generalizing v with
  | zero => simp [hexN]
  | succ n ih =>
    simp only [hexN, List.mem_append, List.mem_singleton, not_or]
    exact ⟨ih _, fun h => digit_ne_colon (v % 16) (by omega) h.symm⟩

theorem splitColon_plain (s : List Char) (h : ':' ∉ s) : splitColon s = [s] := by
  induction s with
  | nil => rfl
  | cons c r ih =>
    simp only [List.mem_cons, not_or] at h
    simp [splitColon, Ne.symm h.1, ih h.2]

theorem splitColon_two (a b : List Char) (ha : ':' ∉ a) (hb : ':' ∉ b) : splitColon (a ++ ':' :: b) = [a, b] := by
  induction a with
  | nil => simp [splitColon, splitColon_plain b hb]
  | cons c r ih =>
    simp only [List.mem_cons, not_or] at ha
    simp [splitColon, Ne.symm ha.1, ih ha.2]

theorem uintLoop_append (n : Nat) (a b : List Char) : uintLoop n (a ++ b) = (uintLoop n a).bind (fun m => uintLoop m b) := by
  induction a generalizing n with
  | nil => simp [uintLoop]
  | cons c r ih =>
    simp only [List.cons_append, uintLoop]
    cases hexVal c with
    | none => rfl
    | some d =>
      simp only [Option.bind_eq_bind, Option.bind_some]
      split
      · rfl
      · exact ih _

theorem uintLoop_hexN (n v : Nat) (hn : n ≤ 16) (hv : v < 16 ^ n) : uintLoop 0 (hexN n v) = some v := by
  induction n generalizing v with
  | zero =>
    have : v = 0 := by simpa using hv
    subst this; rfl
  | succ n ih =>
    rw [hexN, uintLoop_append, ih (v / 16) (by omega) (by rw [Nat.pow_succ] at hv; omega)]
    simp only [Option.bind_some, uintLoop]
    rw [hexVal_digit _ (by omega)]
    simp only [Option.bind_eq_bind, Option.bind_some]
    have h1 : v / 16 * 16 + v % 16 = v := by omega
    rw [h1, if_neg]
    have : 16 ^ (n + 1) ≤ 16 ^ 16 := Nat.pow_le_pow_right (by decide) hn
    have h2 : (16 : Nat) ^ 16 = 2 ^ 64 := by decide
    omega

theorem parseIP_hex (v : Nat) (hv : v < 2 ^ 32) : parseIP (hexN 8 v) = some (ipLong v) := by
  have hd : ∀ x, hexVal (hexDigit (x % 16)) = some (x % 16) := fun x => hexVal_digit _ (by omega)
  simp only [parseIP, hexN, List.nil_append, List.cons_append, hexDecode, hd, Option.bind_eq_bind, Option.bind_some, ipLong]
  congr 2
  · omega
  · congr 1
    · omega
    · congr 1
      · omega
      · congr 1
        omega

theorem parseAddr_text (ip port : Nat) (hi : ip < 2 ^ 32) (hp : port < 2 ^ 16) :
    parseAddr (addrText ip port) = some (ipLong ip, port) := by
  unfold parseAddr addrText
  rw [splitColon_two _ _ (hexN_no_colon _ _) (hexN_no_colon _ _)]
  have hne : hexN 4 port ≠ [] := by simp [hexN]
  simp only [parseIP_hex ip hi, parseUint, hne, ↓reduceIte, uintLoop_hexN 4 port (by decide) (by simpa using hp),
    Option.bind_eq_bind, Option.bind_some]

theorem parseLine_text {s : Sock} (hs : s.Ok) {f : List (List Char)} (hf : IsLine s f) :
    parseLine f = some (s.key, hexN 2 s.st) := by
  obtain ⟨sl, rest, rfl, hr⟩ := hf
  unfold parseLine
  rw [if_neg (by simp; omega)]
  simp [parseAddr_text _ _ hs.1 hs.2.2.1, parseAddr_text _ _ hs.2.1 hs.2.2.2, Sock.key]

/-- Specification: the state of the last socket with the given ends. -/
def lastState : List Sock → SKey → Option (List Char)
  | [], _ => none
  | s :: r, k => match lastState r k with
    | some x => some x
    | none => if s.key = k then some (hexN 2 s.st) else none

theorem fileLoop_spec (socks : List Sock) (hs : ∀ s ∈ socks, s.Ok) (lines : List (List (List Char)))
    (hl : All2 IsLine socks lines) (m : AMap SKey (List Char)) :
    ∃ m', fileLoop m lines = some m' ∧ ∀ k, m'.get k = (lastState socks k).or (m.get k) := by
  induction hl generalizing m with
  | nil => exact ⟨m, rfl, fun k => by simp [lastState]⟩
  | cons h1 h2 ih =>
    rename_i s f ss fs
    obtain ⟨m', e1, e2⟩ := ih (fun x hx => hs x (by simp [hx])) (m.set s.key (hexN 2 s.st))
    refine ⟨m', by simp only [fileLoop, parseLine_text (hs s (by simp)) h1]; exact e1, fun k => ?_⟩
    rw [e2 k, AMap.get_set]
    simp only [lastState]
    cases lastState ss k with
    | some x => rfl
    | none => by_cases hk : s.key = k <;> simp [hk]

/-- Every kernel table is read, and a connection seen in events is found in it under the same key, with
its state. -/
theorem proc_table_read (socks : List Sock) (hs : ∀ s ∈ socks, s.Ok) (header : List (List Char))
    (lines : List (List (List Char))) (hl : All2 IsLine socks lines) :
    ∃ m, parseFile (header :: lines) = some m ∧ ∀ k, m.get k = lastState socks k := by
  obtain ⟨m, h1, h2⟩ := fileLoop_spec socks hs lines hl []
  exact ⟨m, h1, fun k => by rw [h2 k]; cases lastState socks k <;> rfl⟩

/-- Different 32-bit addresses have different bytes, so different connections have different keys. -/
theorem ipLong_injective {a b : Nat} (ha : a < 2 ^ 32) (hb : b < 2 ^ 32) (h : ipLong a = ipLong b) : a = b := by
  simp only [ipLong, List.cons.injEq, and_true] at h
  omega

/-- A table that contains a socket has a state for it. -/
theorem listed_has_state (socks : List Sock) (s : Sock) (hs : s ∈ socks) :
    ∃ s' ∈ socks, s'.key = s.key ∧ lastState socks s.key = some (hexN 2 s'.st) := by
  induction socks with
  | nil => simp at hs
  | cons x r ih =>
    simp only [lastState]
    rcases List.mem_cons.1 hs with rfl | hr
    · cases hl : lastState r s.key with
      | none => exact ⟨s, by simp, rfl, by simp⟩
      | some y =>
        have : ∀ (r : List Sock) k y, lastState r k = some y → ∃ s' ∈ r, s'.key = k ∧ y = hexN 2 s'.st := by
          intro r
          induction r with
          | nil => intro k y h; simp [lastState] at h
          | cons a t iht =>
            intro k y h
            simp only [lastState] at h
            cases hl : lastState t k with
            | some z =>
              rw [hl] at h; simp only [Option.some.injEq] at h
              obtain ⟨s', m1, m2, m3⟩ := iht k z hl
              exact ⟨s', by simp [m1], m2, by rw [← h]; exact m3⟩
            | none =>
              rw [hl] at h
              simp only at h
              split at h
              · rename_i hk
                exact ⟨a, by simp, hk, (Option.some.inj h).symm⟩
              · cases h
        obtain ⟨s', m1, m2, m3⟩ := this r s.key y hl
        exact ⟨s', by simp [m1], m2, by simp [m3]⟩
    · obtain ⟨s', m1, m2, m3⟩ := ih hr
      exact ⟨s', by simp [m1], m2, by rw [m3]⟩

/-- One unreadable line spoils the whole table: the sweep then takes every attempt of the process as
expired. -/
theorem bad_line_fails (header : List (List Char)) (a b : List (List (List Char))) (f : List (List Char))
    (hf : parseLine f = none) : parseFile (header :: (a ++ f :: b)) = none := by
  have : ∀ (a : List (List (List Char))) m, fileLoop m (a ++ f :: b) = none := by
    intro a
    induction a with
    | nil => intro m; simp only [List.nil_append, fileLoop, hf]
    | cons x r ih =>
      intro m
      simp only [List.cons_append, fileLoop]
      cases parseLine x with
      | none => rfl
      | some p => exact ih _
  exact this a []

/-- 127.0.0.1:8080 → 10.0.0.5:443, established. -/
example : (⟨0x0100007F, 8080, 0x0500000A, 443, 1⟩ : Sock).Ok ∧
    (⟨0x0100007F, 8080, 0x0500000A, 443, 1⟩ : Sock).key = ⟨[127, 0, 0, 1], 8080, [10, 0, 0, 5], 443⟩ ∧
    addrText 0x0100007F 8080 = "0100007F:1F90".toList ∧ hexN 2 1 = "01".toList := by
  refine ⟨by unfold Sock.Ok; simp, by decide, by decide, by decide⟩

/-! ### Hexadecimal numbers in general -/

/-- The value of a hexadecimal digit of either case. -/
theorem hexVal_digits : (∀ d : Fin 16, hexVal ("0123456789abcdef".toList.getD d.val ' ') = some d.val ∧ hexVal ("0123456789ABCDEF".toList.getD d.val ' ') = some d.val) ∧
    ∀ c, c ∉ "0123456789abcdefABCDEF".toList → hexVal c = none := by
  refine ⟨by decide +kernel, fun c hc => ?_⟩
  have lift : ∀ (a b : Char), a ≤ c → c ≤ b → a.toNat ≤ c.toNat ∧ c.toNat ≤ b.toNat := by
    intro a b h1 h2
    exact ⟨by simpa [Char.le_def, UInt32.le_iff_toNat_le] using h1, by simpa [Char.le_def, UInt32.le_iff_toNat_le] using h2⟩
  have of : ∀ n, c.toNat = n → c = Char.ofNat n := by
    intro n h; rw [← h]; exact (Char.ofNat_toNat c).symm
  have key : ∀ n, c.toNat = n → Char.ofNat n ∉ "0123456789abcdefABCDEF".toList := fun n h => by rw [← of n h]; exact hc
  unfold hexVal
  split
  · rename_i h; exfalso
    have := lift '0' '9' h.1 h.2
    have h1 : (48 : Nat) ≤ c.toNat := this.1
    have h2 : c.toNat ≤ (57 : Nat) := this.2
    generalize hn : c.toNat = n at *
    have := key n rfl
    rcases (show n = 48 ∨ n = 49 ∨ n = 50 ∨ n = 51 ∨ n = 52 ∨ n = 53 ∨ n = 54 ∨ n = 55 ∨ n = 56 ∨ n = 57 by omega) with rfl | rfl | rfl | rfl | rfl | rfl | rfl | rfl | rfl | rfl <;> exact this (by decide)
  · split
    · rename_i h; exfalso
      have := lift 'a' 'f' h.1 h.2
      have h1 : (97 : Nat) ≤ c.toNat := this.1
      have h2 : c.toNat ≤ (102 : Nat) := this.2
      generalize hn : c.toNat = n at *
      have := key n rfl
      rcases (show n = 97 ∨ n = 98 ∨ n = 99 ∨ n = 100 ∨ n = 101 ∨ n = 102 by omega) with rfl | rfl | rfl | rfl | rfl | rfl <;> exact this (by decide)
    · split
      · rename_i h; exfalso
        have := lift 'A' 'F' h.1 h.2
        have h1 : (65 : Nat) ≤ c.toNat := this.1
        have h2 : c.toNat ≤ (70 : Nat) := this.2
        generalize hn : c.toNat = n at *
        have := key n rfl
        rcases (show n = 65 ∨ n = 66 ∨ n = 67 ∨ n = 68 ∨ n = 69 ∨ n = 70 by omega) with rfl | rfl | rfl | rfl | rfl | rfl <;> exact this (by decide)
      · rfl

/-- The number a text of hexadecimal digits stands for. -/
def hexValue : List Nat → Nat := List.foldl (fun n d => n * 16 + d) 0

theorem uintLoop_eq : ∀ (s : List Char) (n : Nat) (ds : List Nat), s.map hexVal = ds.map some →
    uintLoop n s = if ds.foldl (fun n d => n * 16 + d) n < 2 ^ 64 ∨ ds = [] then some (ds.foldl (fun n d => n * 16 + d) n) else none := by
  have mono : ∀ (ds : List Nat) (n : Nat), n ≤ ds.foldl (fun n d => n * 16 + d) n := by
    intro ds
    induction ds with
    | nil => intro n; exact Nat.le_refl _
    | cons d r ih => intro n; exact Nat.le_trans (by omega) (ih (n * 16 + d))
  intro s
  induction s with
  | nil =>
    intro n ds h
    cases ds with
    | nil => simp [uintLoop]
    | cons => simp at h
  | cons c r ih =>
    intro n ds h
    cases ds with
    | nil => simp at h
    | cons d t =>
      simp only [List.map_cons, List.cons.injEq] at h
      simp only [uintLoop, h.1, List.foldl_cons, Option.bind_eq_bind, Option.bind_some, reduceCtorEq, or_false]
      have hm := mono t (n * 16 + d)
      split
      · rw [if_neg (by omega)]
      · rw [ih _ _ h.2]
        by_cases ht : t = []
        · subst ht; rw [if_pos (Or.inr rfl), if_pos (show List.foldl (fun n d => n * 16 + d) (n * 16 + d) [] < 2 ^ 64 by simp only [List.foldl_nil]; omega)]
        · simp only [ht, or_false]

/-- C74: a number is read exactly when its text is not empty, has only hexadecimal digits and fits 64 bits; it is then the number of
the text. -/
theorem parseUint_exact (s : List Char) (v : Nat) :
    parseUint s = some v ↔ ∃ ds : List Nat, ds ≠ [] ∧ s.map hexVal = ds.map some ∧ hexValue ds = v ∧ v < 2 ^ 64 := by
  have none_of : ∀ (s : List Char) (n : Nat), none ∈ s.map hexVal → uintLoop n s = none := by
    intro s
    induction s with
    | nil => intro n h; simp at h
    | cons c r ih =>
      intro n h
      simp only [List.map_cons, List.mem_cons] at h
      unfold uintLoop
      cases hc : hexVal c with
      | none => rfl
      | some d =>
        rcases h with h | h
        · rw [hc] at h; cases h
        · simp only [Option.bind_eq_bind, Option.bind_some]
          split
          · rfl
          · exact ih _ h
  have all_of : ∀ s : List Char, none ∉ s.map hexVal → ∃ ds : List Nat, s.map hexVal = ds.map some := by
    intro s
    induction s with
    | nil => intro _; exact ⟨[], rfl⟩
    | cons c r ih =>
      intro h
      simp only [List.map_cons, List.mem_cons, not_or] at h
      obtain ⟨ds, hd⟩ := ih h.2
      cases hc : hexVal c with
      | none => exact absurd hc.symm h.1
      | some d => exact ⟨d :: ds, by simp [hc, hd]⟩
  unfold parseUint
  split
  · rename_i h
    subst h
    constructor
    · intro h; cases h
    · rintro ⟨ds, h, h', _⟩
      simp only [List.map_nil] at h'
      exact absurd (List.map_eq_nil_iff.1 h'.symm) h
  · rename_i h
    constructor
    · intro hv
      by_cases hn : none ∈ s.map hexVal
      · rw [none_of s 0 hn] at hv; cases hv
      · obtain ⟨ds, hd⟩ := all_of s hn
        have hne : ds ≠ [] := by rintro rfl; exact h (by simpa using hd)
        rw [uintLoop_eq s 0 ds hd] at hv
        simp only [hne, or_false] at hv
        split at hv
        · rename_i hlt; injection hv with hv; exact ⟨ds, hne, hd, hv, by rw [← hv]; exact hlt⟩
        · cases hv
    · rintro ⟨ds, hne, hd, hv, hlt⟩
      rw [uintLoop_eq s 0 ds hd, if_pos (Or.inl (by rw [← hv] at hlt; exact hlt))]
      exact congrArg some hv

example : parseUint "01bB".toList = some 443 ∧ parseUint "1ffffffffffffffff".toList = none ∧ parseUint "ffffffffffffffff".toList = some (2 ^ 64 - 1) := by decide +kernel

end Kindling.Tcp.Proc
