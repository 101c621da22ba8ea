import Verif.Conn.Cache
import Verif.Dec
/-
Registration and lookup of address translations.  metadata/conntracker/internal/conntracker.go:132-154, 193-252, 333-368, 388-440,
internal/address.go:23-34, conntracker_linux.go:56-95, utils.go:9-24.
-/
namespace Kindling.Conn.Lookup

open Kindling.Conn.Cache (St Op Spec.S)

/-- `net.IP`. -/
abbrev Ip := Bytes

def v4Prefix : Bytes := [0, 0, 0, 0, 0, 0, 0, 0, 0, 0, 255, 255]

/-- `net.IP.To4`. -/
def to4 (ip : Ip) : Option Bytes :=
  if ip.length = 4 then some ip
  else if ip.length = 16 ∧ ip.take 12 = v4Prefix then some (ip.drop 12)
  else none

/-- `net.IP.Equal`. -/
def ipEqual (a b : Ip) : Bool :=
  if a.length = b.length then decide (a = b)
  else if a.length = 4 ∧ b.length = 16 then decide (b.take 12 = v4Prefix) && decide (a = b.drop 12)
  else if a.length = 16 ∧ b.length = 4 then decide (a.take 12 = v4Prefix) && decide (a.drop 12 = b)
  else false

/-- `Address` (internal/address.go:14-34, 70, 114). -/
inductive Addr
  | v4 (b : Bytes)
  | v6 (b : Bytes)
deriving DecidableEq

/-- `AddressFromNetIP` (internal/address.go:23-34): `copy` into an array. -/
def addr (ip : Ip) : Addr := match to4 ip with
  | some b => .v4 b
  | none => .v6 ((ip ++ List.replicate 16 0).take 16)

/-- `ct.ProtoTuple` and `ct.IPTuple` of go-conntrack: pointers, so possibly absent. -/
structure Proto where
  number : Option UInt8
  srcPort : Option UInt16
  dstPort : Option UInt16
deriving DecidableEq

structure Tuple where
  src : Option Ip
  dst : Option Ip
  proto : Option Proto
deriving DecidableEq

/-- `Con` (internal/decoding.go:46-50). -/
structure Con where
  origin : Option Tuple
  reply : Option Tuple
deriving DecidableEq

/-- `connKey` (conntracker.go:44-53); `udp` is `transport` (TCP 0, UDP 1, internal/model.go). -/
structure Key where
  srcIP : Addr
  srcPort : UInt16
  dstIP : Addr
  dstPort : UInt16
  transport : UInt8
deriving DecidableEq

/-- `IPTranslation` (internal/model.go). -/
structure Transl where
  replSrcIP : Ip
  replDstIP : Ip
  replSrcPort : UInt16
  replDstPort : UInt16
deriving DecidableEq

/-- `IsNAT` (conntracker.go:389-405); `none` is a nil dereference. -/
def isNAT (c : Con) : Option Bool := match c.origin, c.reply with
  | some o, some r => match o.proto, r.proto with
    | some po, some pr => match po.srcPort, po.dstPort, pr.srcPort, pr.dstPort with
      | some os, some od, some rs, some rd => match o.src, r.dst with
        | some osrc, some rdst =>
          if !ipEqual osrc rdst then some true
          else match o.dst, r.src with
            | some odst, some rsrc => some (!ipEqual odst rsrc || os != rd || od != rs)
            | _, _ => none
        | _, _ => none
      | _, _, _, _ => some false
    | _, _ => some false
  | _, _ => some false

/-- `formatKey` (conntracker.go:422-440): `none` is a nil dereference, `some none` an unsupported protocol. -/
def formatKey (t : Tuple) : Option (Option Key) := match t.src, t.dst, t.proto with
  | some s, some d, some p => match p.srcPort, p.dstPort, p.number with
    | some sp, some dp, some n =>
      some (if n = 6 then some ⟨addr s, sp, addr d, dp, 0⟩ else if n = 17 then some ⟨addr s, sp, addr d, dp, 1⟩ else none)
    | _, _, _ => none
  | _, _, _ => none

/-- `formatIPTranslation` (conntracker.go:407-420). -/
def formatTransl (t : Tuple) : Option Transl := match t.src, t.dst, t.proto with
  | some s, some d, some p => match p.srcPort, p.dstPort with
    | some sp, some dp => some ⟨s, d, sp, dp⟩
    | _, _ => none
  | _, _, _ => none

abbrev CSt := St Key Transl

/-- The tracker: the limit, `orphanTimeout`, and `cache`.  For a limit that is not positive `simplelru.NewLRU` fails, the
error is ignored and every use of the cache is a nil dereference (conntracker.go:304). -/
def usable (limit : Int) : Option Nat := if limit ≤ 0 then none else some limit.toNat

/-- `registerTuple` (conntracker.go:334-363). -/
def registerTuple (limit : Int) (timeout now : Nat) (s : CSt) (orphan : Bool) (key trans : Tuple) : Option CSt := match formatKey key with
  | none => none
  | some none => some s
  | some (some k) => match usable limit, formatTransl trans with
    | some max, some t => some (Cache.register max s k t orphan (now + timeout)).1
    | _, _ => none

/-- `Add` (conntracker.go:333-368).  Both tuples are registered at the same time of the clock. -/
def add (limit : Int) (timeout now : Nat) (s : CSt) (c : Con) (orphan : Bool) : Option CSt := match c.origin, c.reply with
  | some o, some r => match registerTuple limit timeout now s orphan o r with
    | none => none
    | some s' => registerTuple limit timeout now s' orphan r o
  | _, _ => none

/-- `register` (conntracker.go:236-252), and with `orphan = false` one round of `loadInitialState` (219-232). -/
def register (limit : Int) (timeout now : Nat) (s : CSt) (c : Con) (orphan : Bool) : Option CSt := match isNAT c with
  | none => none
  | some false => some s
  | some true => add limit timeout now s c orphan

/-- `ConnectionStats` (internal/model.go). -/
structure Stats where
  source : Ip
  dest : Ip
  sport : UInt16
  dport : UInt16
  typ : UInt8
deriving DecidableEq

def keyOf (c : Stats) : Key := ⟨addr c.source, c.sport, addr c.dest, c.dport, c.typ⟩

/-- `GetTranslationForConn` (conntracker.go:132-154). -/
def getTranslation (limit : Int) (s : CSt) (c : Stats) : Option (CSt × Option Transl) := match usable limit with
  | none => none
  | some _ => some (Cache.get s (keyOf c))

/-- `getDNATTuple` (conntracker_linux.go:79-95). -/
def dnatOf (c : Stats) : Option Transl → Option Transl
  | none => none
  | some t => if ipEqual c.dest t.replSrcIP && t.replSrcPort == c.dport then none else some t

def getDNAT (limit : Int) (s : CSt) (c : Stats) : Option (CSt × Option Transl) := match getTranslation limit s c with
  | none => none
  | some (s', t) => some (s', dnatOf c t)

/-- `int32ToIp` (utils.go:9-16). -/
def int32ToIp (i : UInt32) : Ip := [i.toUInt8, (i >>> 8).toUInt8, (i >>> 16).toUInt8, (i >>> 24).toUInt8]

/-- `IPToUInt32` (utils.go:18-24). -/
def ipToUInt32 (ip : Ip) : UInt32 := match to4 ip with
  | some [a, b, c, d] => a.toUInt32 ||| (b.toUInt32 <<< 8) ||| (c.toUInt32 <<< 16) ||| (d.toUInt32 <<< 24)
  | _ => 0

/-- `GetDNATTuple` (conntracker_linux.go:67-76). -/
def getDNATTuple (limit : Int) (s : CSt) (src dst : UInt32) (sport dport : UInt16) (isUdp : UInt32) : Option (CSt × Option Transl) :=
  getDNAT limit s ⟨int32ToIp src, int32ToIp dst, sport, dport, isUdp.toUInt8⟩

/-! ### Addresses -/

/-- Spec: an address of 4 or 16 bytes. -/
def IsIp (ip : Ip) : Prop := ip.length = 4 ∨ ip.length = 16

theorem take_drop_eq {a b : Bytes} (h1 : a.take 12 = b.take 12) (h2 : a.drop 12 = b.drop 12) : a = b := by
  rw [← List.take_append_drop 12 a, h1, h2, List.take_append_drop]

/-- Addresses are equal as keys exactly if they are equal as IP addresses: an IPv4 address and its IPv6 form are one. -/
theorem addr_eq_iff (a b : Ip) (ha : IsIp a) (hb : IsIp b) : addr a = addr b ↔ ipEqual a b = true := by
  rcases ha with ha | ha <;> rcases hb with hb | hb
  · simp [addr, to4, ipEqual, ha, hb]
  · by_cases hp : b.take 12 = v4Prefix
    · simp [addr, to4, ipEqual, ha, hb, hp]
    · simp [addr, to4, ipEqual, ha, hb, hp]
  · by_cases hp : a.take 12 = v4Prefix
    · simp [addr, to4, ipEqual, ha, hb, hp]
    · simp [addr, to4, ipEqual, ha, hb, hp]
  · by_cases hp : a.take 12 = v4Prefix <;> by_cases hq : b.take 12 = v4Prefix
    · have e1 : addr a = .v4 (a.drop 12) := by simp [addr, to4, ha, hp]
      have e2 : addr b = .v4 (b.drop 12) := by simp [addr, to4, hb, hq]
      rw [e1, e2, Addr.v4.injEq]
      simp only [ipEqual, ha, hb, if_true, decide_eq_true_eq]
      constructor
      · exact fun h => take_drop_eq (hp.trans hq.symm) h
      · exact fun h => by rw [h]
    · have : a ≠ b := fun hc => hq (hc ▸ hp)
      simp [addr, to4, ipEqual, ha, hb, hp, hq, this]
    · have : a ≠ b := fun hc => hp (hc ▸ hq)
      simp [addr, to4, ipEqual, ha, hb, hp, hq, this]
    · simp [addr, to4, ipEqual, ha, hb, hp, hq]

theorem ipEqual_refl (a : Ip) : ipEqual a a = true := by simp [ipEqual]

theorem ipEqual_symm (a b : Ip) : ipEqual a b = ipEqual b a := by
  have key : ∀ a b, ipEqual a b = true → ipEqual b a = true := by
    intro a b h
    unfold ipEqual at h ⊢
    by_cases h1 : a.length = b.length
    · rw [if_pos h1] at h
      rw [if_pos h1.symm]
      simp only [decide_eq_true_eq] at h ⊢
      exact h.symm
    · rw [if_neg h1] at h
      rw [if_neg (Ne.symm h1)]
      by_cases h2 : a.length = 4 ∧ b.length = 16
      · rw [if_pos h2] at h
        rw [if_neg (by omega), if_pos ⟨h2.2, h2.1⟩]
        simp only [Bool.and_eq_true, decide_eq_true_eq] at h ⊢
        exact ⟨h.1, h.2.symm⟩
      · rw [if_neg h2] at h
        by_cases h3 : a.length = 16 ∧ b.length = 4
        · rw [if_pos h3] at h
          rw [if_pos ⟨h3.2, h3.1⟩]
          simp only [Bool.and_eq_true, decide_eq_true_eq] at h ⊢
          exact ⟨h.1, h.2.symm⟩
        · rw [if_neg h3] at h
          cases h
  cases h : ipEqual a b <;> cases h' : ipEqual b a
  · rfl
  · rw [key b a h'] at h; cases h
  · rw [key a b h] at h'; cases h'
  · rfl

/-- Events and translations agree on the byte order of addresses. -/
theorem ip_round_trip (i : UInt32) : ipToUInt32 (int32ToIp i) = i := by
  have h : ∀ j : BitVec 32, (j.setWidth 8).setWidth 32 ||| ((j >>> 8).setWidth 8).setWidth 32 <<< 8 ||| ((j >>> 16).setWidth 8).setWidth 32 <<< 16
      ||| ((j >>> 24).setWidth 8).setWidth 32 <<< 24 = j := by
    intro j
    apply BitVec.eq_of_getLsbD_eq
    intro k hk
    simp only [BitVec.getLsbD_or, BitVec.getLsbD_setWidth, BitVec.getLsbD_shiftLeft, BitVec.getLsbD_ushiftRight]
    by_cases h1 : k < 8
    · simp [h1, hk, show k < 16 by omega, show k < 24 by omega]
    · by_cases h2 : k < 16
      · simp [h1, h2, hk, show k < 24 by omega, show k - 8 < 8 by omega, show k - 8 < 32 by omega, show 8 + (k - 8) = k by omega]
      · by_cases h3 : k < 24
        · simp [h1, h2, h3, hk, show ¬ k - 8 < 8 by omega, show k - 16 < 8 by omega, show k - 16 < 32 by omega, show 16 + (k - 16) = k by omega]
        · simp [h1, h2, h3, hk, show ¬ k - 8 < 8 by omega, show ¬ k - 16 < 8 by omega, show k - 24 < 8 by omega, show k - 24 < 32 by omega,
            show 24 + (k - 24) = k by omega]
  apply UInt32.toBitVec_inj.1
  have := h i.toBitVec
  simp only [ipToUInt32, int32ToIp, to4, List.length_cons, List.length_nil, Nat.zero_add, Nat.reduceAdd, if_true, UInt32.toBitVec_or,
    UInt32.toBitVec_shiftLeft, UInt8.toBitVec_toUInt32, UInt32.toBitVec_toUInt8, UInt32.toBitVec_shiftRight]
  exact this

/-! ### Registered connections -/

/-- A connection as the kernel reports it: both tuples complete, over TCP or UDP. -/
def tuple (src dst : Ip) (sp dp : UInt16) (n : UInt8) : Tuple := ⟨some src, some dst, some ⟨some n, some sp, some dp⟩⟩

structure Flow where
  src : Ip
  dst : Ip
  sport : UInt16
  dport : UInt16
deriving DecidableEq

def Flow.tuple (f : Flow) (n : UInt8) : Tuple := Lookup.tuple f.src f.dst f.sport f.dport n
def con (o r : Flow) (n : UInt8) : Con := ⟨some (o.tuple n), some (r.tuple n)⟩
def Flow.transl (f : Flow) : Transl := ⟨f.src, f.dst, f.sport, f.dport⟩
def Flow.key (f : Flow) (udp : Bool) : Key := ⟨addr f.src, f.sport, addr f.dst, f.dport, if udp then 1 else 0⟩
def Flow.Ok (f : Flow) : Prop := IsIp f.src ∧ IsIp f.dst
/-- Spec: the reply runs opposite to the original direction. -/
def Opposite (o r : Flow) : Prop := ipEqual o.src r.dst = true ∧ ipEqual o.dst r.src = true ∧ o.sport = r.dport ∧ o.dport = r.sport

def protoNum (udp : Bool) : UInt8 := if udp then 17 else 6

/-- Only connections whose reply does not run opposite are stored. -/
theorem isNAT_iff (o r : Flow) (n : UInt8) : ∃ b, isNAT (con o r n) = some b ∧ (b = true ↔ ¬ Opposite o r) := by
  unfold isNAT con Flow.tuple tuple Opposite
  simp only
  cases h1 : ipEqual o.src r.dst <;> cases h2 : ipEqual o.dst r.src <;> simp
  constructor
  · rintro (h | h)
    · exact fun h' => absurd h' h
    · exact fun _ => h
  · intro h
    by_cases h' : o.sport = r.dport
    · exact Or.inr (h h')
    · exact Or.inl h'

theorem formatKey_flow (f : Flow) (udp : Bool) : formatKey (f.tuple (protoNum udp)) = some (some (f.key udp)) := by
  cases udp <;> rfl

/-- Registering a translated connection stores both directions. -/
theorem register_nat (limit : Int) (hl : 0 < limit) (timeout now : Nat) (s : CSt) (o r : Flow) (udp orphan : Bool) (hn : ¬ Opposite o r) :
    register limit timeout now s (con o r (protoNum udp)) orphan =
      some (Cache.register limit.toNat (Cache.register limit.toNat s (o.key udp) r.transl orphan (now + timeout)).1 (r.key udp) o.transl orphan
        (now + timeout)).1 := by
  obtain ⟨b, hb, hb'⟩ := isNAT_iff o r (protoNum udp)
  have : b = true := hb'.2 hn
  subst this
  have hu : usable limit = some limit.toNat := by unfold usable; rw [if_neg (by omega)]
  unfold register
  rw [hb]
  simp only [add, con, registerTuple, formatKey_flow, hu]
  rfl

/-- Connections without translation, and protocols other than TCP and UDP, change nothing. -/
theorem register_plain (limit : Int) (timeout now : Nat) (s : CSt) (o r : Flow) (n : UInt8) (orphan : Bool)
    (h : Opposite o r ∨ (n ≠ 6 ∧ n ≠ 17)) : register limit timeout now s (con o r n) orphan = some s := by
  obtain ⟨b, hb, hb'⟩ := isNAT_iff o r n
  unfold register
  rw [hb]
  cases b with
  | false => rfl
  | true =>
    rcases h with h | h
    · exact absurd h (hb'.1 rfl)
    · have hk : ∀ f : Flow, formatKey (f.tuple n) = some none := by
        intro f
        simp only [formatKey, Flow.tuple, tuple]
        rw [if_neg h.1, if_neg h.2]
      simp only [add, con, registerTuple, hk]

/-! ### Histories -/

/-- What happens to the tracker. -/
inductive Ev
  | con (o r : Flow) (n : UInt8) (orphan : Bool)
  | look (c : Stats)
  | delete (c : Stats)
  | compact

/-- `register`, `GetTranslationForConn`, `DeleteTranslation` (conntracker.go:193-208), `compact` (280-290). -/
def step (limit : Int) (timeout : Nat) (s : CSt) (now : Nat) : Ev → Option CSt
  | .con o r n orphan => register limit timeout now s (con o r n) orphan
  | .look c => (getTranslation limit s c).map (·.1)
  | .delete c => match usable limit with
    | none => none
    | some _ => some (Cache.remove s (keyOf c)).1
  | .compact => match usable limit with
    | none => none
    | some _ => (Cache.sweep s.orphans.length s now).map (·.1)

def run (limit : Int) (timeout : Nat) : CSt → List (Nat × Ev) → Option CSt
  | s, [] => some s
  | s, (now, e) :: r => match step limit timeout s now e with
    | none => none
    | some s' => run limit timeout s' r

open Classical in
/-- The cache operations of an event. -/
noncomputable def opsOf : Ev → List (Op Key Transl)
  | .con o r n orphan =>
    if Opposite o r ∨ (n ≠ 6 ∧ n ≠ 17) then []
    else [.add (o.key (n == 17)) r.transl orphan, .add (r.key (n == 17)) o.transl orphan]
  | .look c => [.get (keyOf c)]
  | .delete c => [.remove (keyOf c)]
  | .compact => [.sweep]

noncomputable def opsAll (es : List (Nat × Ev)) : List (Nat × Op Key Transl) := es.flatMap (fun p => (opsOf p.2).map (fun o => (p.1, o)))

theorem step_ops (limit : Int) (hl : 0 < limit) (timeout : Nat) (s : CSt) (now : Nat) (e : Ev) :
    step limit timeout s now e = Cache.run limit.toNat timeout s ((opsOf e).map (fun o => (now, o))) := by
  have hu : usable limit = some limit.toNat := by unfold usable; rw [if_neg (by omega)]
  cases e with
  | con o r n orphan =>
    simp only [step, opsOf]
    by_cases h : Opposite o r ∨ (n ≠ 6 ∧ n ≠ 17)
    · rw [if_pos h, register_plain limit timeout now s o r n orphan h]
      rfl
    · rw [if_neg h]
      rw [not_or] at h
      have hn : n = protoNum (n == 17) := by
        unfold protoNum
        by_cases h17 : n = 17
        · subst h17; rfl
        · have : n = 6 := Decidable.by_contra (fun hc => h.2 ⟨hc, h17⟩)
          subst this; rfl
      generalize (n == 17) = udp at hn
      subst hn
      rw [register_nat limit hl timeout now s o r udp orphan h.1]
      rfl
  | look c => simp only [step, getTranslation, hu, opsOf, List.map_cons, List.map_nil, Cache.run, Cache.step, Option.map_some]
  | delete c => simp only [step, hu, opsOf, List.map_cons, List.map_nil, Cache.run, Cache.step]
  | compact =>
    simp only [step, hu, opsOf, List.map_cons, List.map_nil, Cache.run, Cache.step]
    cases Cache.sweep s.orphans.length s now <;> rfl

theorem run_append {K V : Type} [DecidableEq K] (max timeout : Nat) (s : St K V) (a b : List (Nat × Op K V)) :
    Cache.run max timeout s (a ++ b) = (Cache.run max timeout s a).bind (fun s' => Cache.run max timeout s' b) := by
  induction a generalizing s with
  | nil => rfl
  | cons p r ih =>
    obtain ⟨now, o⟩ := p
    simp only [List.cons_append, Cache.run]
    cases Cache.step max timeout s now o with
    | none => rfl
    | some s' => exact ih s'

theorem run_ops (limit : Int) (hl : 0 < limit) (timeout : Nat) (s : CSt) (es : List (Nat × Ev)) :
    run limit timeout s es = Cache.run limit.toNat timeout s (opsAll es) := by
  induction es generalizing s with
  | nil => rfl
  | cons p r ih =>
    obtain ⟨now, e⟩ := p
    have : opsAll ((now, e) :: r) = (opsOf e).map (fun o => (now, o)) ++ opsAll r := by
      unfold opsAll; rw [List.flatMap_cons]
    rw [this, run_append, ← step_ops limit hl]
    unfold run
    cases step limit timeout s now e with
    | none => rfl
    | some s' => exact ih s'

theorem opsAll_clock (es : List (Nat × Ev)) (h : (es.map (·.1)).Pairwise (· ≤ ·)) : ((opsAll es).map (·.1)).Pairwise (· ≤ ·) := by
  induction es with
  | nil => simp [opsAll]
  | cons p r ih =>
    simp only [List.map_cons, List.pairwise_cons] at h
    have : opsAll (p :: r) = (opsOf p.2).map (fun o => (p.1, o)) ++ opsAll r := by
      unfold opsAll; rw [List.flatMap_cons]
    rw [this, List.map_append, List.pairwise_append]
    have hfst : ∀ x ∈ ((opsOf p.2).map (fun o => (p.1, o))).map (·.1), x = p.1 := by
      intro x hx
      simp only [List.map_map, List.mem_map, Function.comp] at hx
      obtain ⟨_, _, rfl⟩ := hx
      rfl
    refine ⟨?_, ih h.2, ?_⟩
    · generalize ((opsOf p.2).map (fun o => (p.1, o))).map (·.1) = l at hfst
      induction l with
      | nil => exact List.Pairwise.nil
      | cons a l ihl =>
        refine List.pairwise_cons.2 ⟨fun b hb => ?_, ihl (fun x hx => hfst x (List.mem_cons_of_mem _ hx))⟩
        rw [hfst a (by simp), hfst b (List.mem_cons_of_mem _ hb)]
        exact Nat.le_refl _
    · intro a ha b hb
      rw [hfst a ha]
      obtain ⟨q, hq, rfl⟩ := List.mem_map.1 hb
      unfold opsAll at hq
      obtain ⟨e, he, hq⟩ := List.mem_flatMap.1 hq
      obtain ⟨o, _, rfl⟩ := List.mem_map.1 hq
      exact h.1 _ (List.mem_map.2 ⟨e, he, rfl⟩)

/-- Spec: the translation the last translated connection of the history gave a key, if it was not deleted since. -/
def Last (k : Key) : List (Nat × Ev) → Option Transl → Option Transl → Prop
  | [], d, t => t = d
  | (_, .con o r n _) :: es, d, t =>
    (Opposite o r ∨ (n ≠ 6 ∧ n ≠ 17) → Last k es d t) ∧
    (¬ Opposite o r → n = 6 ∨ n = 17 →
      (r.key (n == 17) = k → Last k es (some o.transl) t) ∧
      (r.key (n == 17) ≠ k → o.key (n == 17) = k → Last k es (some r.transl) t) ∧
      (r.key (n == 17) ≠ k → o.key (n == 17) ≠ k → Last k es d t))
  | (_, .delete c) :: es, d, t => (keyOf c = k → Last k es none t) ∧ (keyOf c ≠ k → Last k es d t)
  | _ :: es, d, t => Last k es d t

theorem lastAdd_last (k : Key) (es : List (Nat × Ev)) (d : Option Transl) : Last k es d (Cache.lastAdd k (opsAll es) d) := by
  induction es generalizing d with
  | nil => rfl
  | cons p r ih =>
    obtain ⟨now, e⟩ := p
    have hcons : opsAll ((now, e) :: r) = (opsOf e).map (fun o => (now, o)) ++ opsAll r := by
      unfold opsAll; rw [List.flatMap_cons]
    rw [hcons]
    cases e with
    | con o rr n orphan =>
      unfold Last
      refine ⟨fun h => ?_, fun h1 h2 => ?_⟩
      · simp only [opsOf, if_pos h, List.map_nil, List.nil_append]
        exact ih d
      · have hneg : ¬ (Opposite o rr ∨ (n ≠ 6 ∧ n ≠ 17)) := by
          rintro (h | h)
          · exact h1 h
          · rcases h2 with h2 | h2
            · exact h.1 h2
            · exact h.2 h2
        simp only [opsOf, if_neg hneg, List.map_cons, List.map_nil, List.cons_append, List.nil_append, Cache.lastAdd]
        refine ⟨fun h => ?_, fun h h' => ?_, fun h h' => ?_⟩
        · rw [if_pos h]; exact ih _
        · rw [if_neg h, if_pos h']; exact ih _
        · rw [if_neg h, if_neg h']; exact ih _
    | look c => exact ih d
    | delete c =>
      unfold Last
      simp only [opsOf, List.map_cons, List.map_nil, List.cons_append, List.nil_append, Cache.lastAdd]
      refine ⟨fun h => ?_, fun h => ?_⟩
      · rw [if_pos h]; exact ih _
      · rw [if_neg h]; exact ih _
    | compact => exact ih d

/-- C56.  After every history of the tracker a lookup succeeds; what it returns is the translation of the last
translated connection seen with these addresses, and only if that changes the destination. -/
theorem dnat_sound (limit : Int) (hl : 0 < limit) (timeout : Nat) (es : List (Nat × Ev)) (hclock : (es.map (·.1)).Pairwise (· ≤ ·)) (c : Stats) :
    ∃ s s' res, run limit timeout Cache.init es = some s ∧ getDNAT limit s c = some (s', res) ∧
      ∀ t, res = some t → Last (keyOf c) es none (some t) ∧ ¬ (ipEqual c.dest t.replSrcIP = true ∧ t.replSrcPort = c.dport) := by
  obtain ⟨s, h1, h2, h3, h4⟩ := Cache.history_refines (max := limit.toNat) timeout (opsAll es) (opsAll_clock es hclock)
  have hu : usable limit = some limit.toNat := by unfold usable; rw [if_neg (by omega)]
  have hg := Cache.get_refines h2 (keyOf c)
  refine ⟨s, (Cache.get s (keyOf c)).1, dnatOf c (Cache.get s (keyOf c)).2, ?_, ?_, ?_⟩
  · rw [run_ops limit hl, h1]
  · simp only [getDNAT, getTranslation, hu]
  · intro t ht
    rw [hg.2.2, h4] at ht
    cases hlk : Cache.Spec.lookup (Cache.Spec.run limit.toNat timeout [] (opsAll es)) (keyOf c) with
    | none => rw [hlk] at ht; cases ht
    | some w =>
      rw [hlk] at ht
      simp only [dnatOf] at ht
      split at ht
      · cases ht
      · rename_i hcond
        cases ht
        refine ⟨?_, fun hc => hcond ?_⟩
        · have := Cache.lookup_last_added timeout (opsAll es) (keyOf c) t hlk
          rw [← this]
          exact lastAdd_last _ _ _
        · simp [hc.1, hc.2]

/-- The event asks for this connection or reports one of its directions. -/
def Uses : Ev → Key → Prop
  | .con o r n _, k => ¬ Opposite o r ∧ ((n = 6 ∨ n = 17) ∧ (o.key (n == 17) = k ∨ r.key (n == 17) = k))
  | .look c, k => keyOf c = k
  | .delete c, k => keyOf c = k
  | .compact, _ => False

/-- C56, completeness.  A translated connection is found by its original addresses (in either form) as long as fewer
than `limit - 1` other directions are used, and its time (two minutes, before the first lookup) is not over. -/
theorem dnat_found (limit : Int) (timeout : Nat) (es0 es : List (Nat × Ev)) (now : Nat) (o r : Flow) (udp orphan : Bool) (hok : o.Ok) (hrok : r.Ok)
    (hn : ¬ Opposite o r)
    (hclock : ((es0 ++ (now, .con o r (protoNum udp) orphan) :: es).map (·.1)).Pairwise (· ≤ ·))
    (others : List Key) (ho : o.key udp ∉ others) (hr : r.key udp ∈ others) (hlen : (others.length : Int) < limit)
    (huses : ∀ p ∈ es, ∀ k, Uses p.2 k → k ∈ others) (htime : orphan = true → ∀ p ∈ es, p.1 ≤ now + timeout)
    (c : Stats) (hcs : IsIp c.source) (hcd : IsIp c.dest) (hc1 : ipEqual c.source o.src = true) (hc2 : ipEqual c.dest o.dst = true)
    (hc3 : c.sport = o.sport) (hc4 : c.dport = o.dport) (hc5 : c.typ = if udp then 1 else 0) :
    ∃ s s', run limit timeout Cache.init (es0 ++ (now, .con o r (protoNum udp) orphan) :: es) = some s ∧
      getDNAT limit s c = some (s', if ipEqual o.dst r.src = true ∧ r.sport = o.dport then none else some r.transl) := by
  have hl : 0 < limit := by have := List.length_pos_of_mem hr; omega
  have hu : usable limit = some limit.toNat := by unfold usable; rw [if_neg (by omega)]
  obtain ⟨s, h1, h2, h3, h4⟩ := Cache.history_refines (max := limit.toNat) timeout _ (opsAll_clock _ hclock)
  have hk : keyOf c = o.key udp := by
    unfold keyOf Flow.key
    rw [(addr_eq_iff _ _ hcs hok.1).2 hc1, (addr_eq_iff _ _ hcd hok.2).2 hc2, hc3, hc4, hc5]
  have hnum : protoNum udp = 6 ∨ protoNum udp = 17 := by cases udp <;> simp [protoNum]
  have h17 : (protoNum udp == 17) = udp := by cases udp <;> rfl
  have hneg : ¬ (Opposite o r ∨ (protoNum udp ≠ 6 ∧ protoNum udp ≠ 17)) := by
    rintro (h | h)
    · exact hn h
    · rcases hnum with h' | h'
      · exact h.1 h'
      · exact h.2 h'
  have hops : opsAll (es0 ++ (now, .con o r (protoNum udp) orphan) :: es) =
      opsAll es0 ++ (now, .add (o.key udp) r.transl orphan) :: ((now, .add (r.key udp) o.transl orphan) :: opsAll es) := by
    unfold opsAll
    rw [List.flatMap_append, List.flatMap_cons]
    simp only [opsOf, if_neg hneg, h17, List.map_cons, List.map_nil, List.cons_append, List.nil_append]
  have hrun : ∀ (l : Cache.Spec.S Key Transl) a b, Cache.Spec.run limit.toNat timeout l (a ++ b) =
      Cache.Spec.run limit.toNat timeout (Cache.Spec.run limit.toNat timeout l a) b := by
    intro l a b
    induction a generalizing l with
    | nil => rfl
    | cons p a ih => obtain ⟨n, o⟩ := p; exact ih _
  have hnd : ∀ (a : List (Nat × Op Key Transl)) (l : Cache.Spec.S Key Transl), (l.map (·.key)).Nodup →
      ((Cache.Spec.run limit.toNat timeout l a).map (·.key)).Nodup := by
    intro a
    induction a with
    | nil => exact fun l h => h
    | cons p a ih => obtain ⟨n, o⟩ := p; exact fun l h => ih _ (Cache.step_nodup _ _ _ _ _ h)
  have hlook : Cache.Spec.lookup (Cache.abs s) (keyOf c) = some r.transl := by
    rw [h4, hops, hrun, hk]
    refine Cache.lookup_stays timeout _ (hnd _ _ (by simp)) (o.key udp) r.transl (if orphan then some (now + timeout) else none) others ho
      (by omega) _ ?_ ?_
    · intro p hp k' ht
      rcases List.mem_cons.1 hp with rfl | hp
      · cases ht; exact hr
      · unfold opsAll at hp
        obtain ⟨q, hq, hp⟩ := List.mem_flatMap.1 hp
        obtain ⟨x, hx, rfl⟩ := List.mem_map.1 hp
        refine huses q hq k' ?_
        obtain ⟨t, e⟩ := q
        cases e with
        | con o' r' n' orphan' =>
          simp only [opsOf] at hx
          split at hx
          · cases hx
          · rename_i hneg'
            rw [not_or] at hneg'
            refine ⟨hneg'.1, Decidable.by_contra (fun hc => hneg'.2 (by rw [not_or] at hc; exact hc)), ?_⟩
            simp only [List.mem_cons, List.not_mem_nil, or_false] at hx
            rcases hx with rfl | rfl
            · exact Or.inl ht
            · exact Or.inr ht
        | look c' => simp only [opsOf, List.mem_singleton] at hx; subst hx; exact ht
        | delete c' => simp only [opsOf, List.mem_singleton] at hx; subst hx; exact ht
        | compact => simp only [opsOf, List.mem_singleton] at hx; subst hx; exact ht
    · intro x hx p hp
      cases orphan with
      | false => cases hx
      | true =>
        cases hx
        rcases List.mem_cons.1 hp with rfl | hp
        · exact Nat.le_add_right _ _
        · unfold opsAll at hp
          obtain ⟨q, hq, hp⟩ := List.mem_flatMap.1 hp
          obtain ⟨x, _, rfl⟩ := List.mem_map.1 hp
          exact htime rfl q hq
  have hg := Cache.get_refines h2 (keyOf c)
  refine ⟨s, (Cache.get s (keyOf c)).1, ?_, ?_⟩
  · rw [run_ops limit hl, h1]
  · simp only [getDNAT, getTranslation, hu]
    rw [hg.2.2, hlook]
    have he : ipEqual c.dest r.src = ipEqual o.dst r.src := by
      have a := addr_eq_iff c.dest r.src hcd hrok.1
      have b := addr_eq_iff o.dst r.src hok.2 hrok.1
      rw [(addr_eq_iff _ _ hcd hok.2).2 hc2] at a
      cases h : ipEqual c.dest r.src <;> cases h' : ipEqual o.dst r.src
      · rfl
      · rw [h'] at b; rw [h] at a; exact absurd (a.1 (b.2 rfl)) (by decide)
      · rw [h'] at b; rw [h] at a; exact absurd (b.1 (a.2 rfl)) (by decide)
      · rfl
    have hd : dnatOf c (some r.transl) = if ipEqual c.dest r.src && r.sport == c.dport then none else some r.transl := rfl
    rw [hd, he, hc4]
    by_cases h5 : ipEqual o.dst r.src = true ∧ r.sport = o.dport
    · rw [if_pos h5, if_pos (by simp [h5.1, h5.2])]
    · rw [if_neg h5, if_neg (by simpa using h5)]

/-- Finding: a translation that was looked up stays until it is evicted; a later connection with the same addresses that
is not translated does not replace it. -/
theorem stale_translation (limit : Int) (timeout now : Nat) (s s1 : CSt) (c : Stats) (t : Transl) (o r : Flow) (n : UInt8) (orphan : Bool)
    (h : getDNAT limit s c = some (s1, some t)) (hplain : Opposite o r) :
    register limit timeout now s (con o r n) orphan = some s ∧
    (register limit timeout now s (con o r n) orphan).bind (fun s' => getDNAT limit s' c) = some (s1, some t) := by
  have := register_plain limit timeout now s o r n orphan (Or.inl hplain)
  rw [this]
  exact ⟨rfl, h⟩

/-- Finding: with a limit of 0 or less the first translated connection crashes the process. -/
theorem no_cache_panics (limit : Int) (hl : limit ≤ 0) (timeout now : Nat) (s : CSt) (o r : Flow) (udp orphan : Bool) (hn : ¬ Opposite o r) (c : Stats) :
    register limit timeout now s (con o r (protoNum udp)) orphan = none ∧ getDNAT limit s c = none := by
  obtain ⟨b, hb, hb'⟩ := isNAT_iff o r (protoNum udp)
  have : b = true := hb'.2 hn
  subst this
  have hu : usable limit = none := by unfold usable; rw [if_pos hl]
  constructor
  · unfold register
    rw [hb]
    simp only [add, con, registerTuple, formatKey_flow, hu]
  · simp only [getDNAT, getTranslation, hu]

/-- Finding: a message with ports but without the original source address crashes the process. -/
theorem missing_address_panics (limit : Int) (timeout now : Nat) (s : CSt) (o r : Tuple) (po pr : Proto) (a b c d : UInt16) (orphan : Bool)
    (ho : o.proto = some po) (hr : r.proto = some pr) (h1 : po.srcPort = some a) (h2 : po.dstPort = some b) (h3 : pr.srcPort = some c)
    (h4 : pr.dstPort = some d) (h : o.src = none ∨ r.dst = none) : register limit timeout now s ⟨some o, some r⟩ orphan = none := by
  have : isNAT ⟨some o, some r⟩ = none := by
    unfold isNAT
    simp only [ho, hr, h1, h2, h3, h4]
    rcases h with h | h
    · rw [h]
    · rw [h]
      cases o.src <;> rfl
  unfold register
  rw [this]

/-! ### Example -/

/-- A service address translated to a pod. -/
def exO : Flow := ⟨[10, 0, 0, 1], [10, 96, 0, 1], 40000, 80⟩
def exR : Flow := ⟨[10, 0, 0, 9], [10, 0, 0, 1], 8080, 40000⟩
example : ¬ Opposite exO exR := by unfold Opposite; decide
example : exO.key false ≠ exR.key false := by decide

/-- The pod behind the service is found, in the presence of other traffic. -/
example : ∃ s s', run 130000 120 Cache.init [(5, .con exO exR 6 true), (6, .con exR exO 1 true), (7, .compact)] = some s ∧
    getDNAT 130000 s ⟨[0, 0, 0, 0, 0, 0, 0, 0, 0, 0, 255, 255, 10, 0, 0, 1], [10, 96, 0, 1], 40000, 80, 0⟩ = some (s', some exR.transl) := by
  have h := dnat_found 130000 120 [] [(6, .con exR exO 1 true), (7, .compact)] 5 exO exR false true ⟨Or.inl rfl, Or.inl rfl⟩ ⟨Or.inl rfl, Or.inl rfl⟩
    (by unfold Opposite; decide) (by decide) [exR.key false] (by decide) (by simp) (by decide)
    (by
      intro p hp k hk
      simp only [List.mem_cons, List.not_mem_nil, or_false] at hp
      rcases hp with rfl | rfl
      · rcases hk.2.1 with h | h <;> exact absurd h (by decide)
      · exact hk.elim)
    (by simp) ⟨[0, 0, 0, 0, 0, 0, 0, 0, 0, 0, 255, 255, 10, 0, 0, 1], [10, 96, 0, 1], 40000, 80, 0⟩ (Or.inr rfl) (Or.inl rfl) (by decide) (by decide)
    rfl rfl rfl
  rw [if_neg (by decide)] at h
  exact h

/-- An IPv6 address of which only a part arrived is the key of the address that ends in zeros. -/
theorem cut_address_collides (ip : Ip) (n : Nat) (h : ip.length = 16) (hv : ip.take 12 ≠ v4Prefix) (hn : n < 16) (h4 : n ≠ 4)
    (hz : ip.drop n = List.replicate (16 - n) 0) : addr (ip.take n) = addr ip := by
  have e : ip = ip.take n ++ List.replicate (16 - n) 0 := by rw [← hz, List.take_append_drop]
  have hl : (ip.take n).length = n := by rw [List.length_take]; omega
  have e1 : addr (ip.take n) = .v6 ((ip.take n ++ List.replicate 16 0).take 16) := by
    unfold addr to4
    rw [hl, if_neg h4, if_neg (by omega)]
  have e2 : addr ip = .v6 ip := by
    unfold addr to4
    rw [h, if_neg (by omega), if_neg (by simp [hv])]
    simp only [← h, List.take_left]
  rw [e1, e2]
  congr 1
  conv => rhs; rw [e]
  rw [List.take_append, hl, List.take_of_length_le (by omega), List.take_replicate]
  congr 2
  omega

example : addr [0x20, 1, 0xd] = addr [0x20, 1, 0xd, 0, 0, 0, 0, 0, 0, 0, 0, 0, 0, 0, 0, 0] := by decide

/-- A tuple with all that `IsNAT` asks for first: the ports. -/
def HasPorts (t : Option Tuple) : Prop := ∃ x p a b, t = some x ∧ x.proto = some p ∧ p.srcPort = some a ∧ p.dstPort = some b

/-- C56: a message that lacks a tuple, a protocol or a port is no translation: it changes nothing. -/
theorem incomplete_ignored (limit : Int) (timeout now : Nat) (s : CSt) (c : Con) (orphan : Bool) (h : ¬ HasPorts c.origin ∨ ¬ HasPorts c.reply) :
    register limit timeout now s c orphan = some s := by
  have : isNAT c = some false := by
    unfold isNAT
    split
    · split
      · split
        · rename_i _ _ ho hr _ _ _ _ hp hq _ _ _ _ _ _ _ _ h1 h2 h3 h4
          rcases h with h | h
          · exact absurd ⟨_, _, _, _, ho, hp, h1, h2⟩ h
          · exact absurd ⟨_, _, _, _, hr, hq, h3, h4⟩ h
        · rfl
      · rfl
    · rfl
  unfold register
  rw [this]

example : ¬ HasPorts none ∧ ¬ HasPorts (some ⟨none, none, none⟩) := by
  constructor
  · rintro ⟨_, _, _, _, h, _⟩; cases h
  · rintro ⟨_, _, _, _, h, h2, _⟩; cases h; cases h2

/-- C56: the sixteen bytes ::ffff:a.b.c.d are the address a.b.c.d, and no other sixteen bytes are. -/
theorem mapped_address (v4 ip : Ip) (h4 : v4.length = 4) (h16 : ip.length = 16) :
    (to4 ip = some v4 ↔ ip = List.replicate 10 0 ++ [255, 255] ++ v4) ∧ (ipEqual ip v4 = true ↔ ip = List.replicate 10 0 ++ [255, 255] ++ v4) ∧
    (ipEqual v4 ip = true ↔ ip = List.replicate 10 0 ++ [255, 255] ++ v4) := by
  have key : (ip.take 12 = v4Prefix ∧ ip.drop 12 = v4) ↔ ip = List.replicate 10 0 ++ [255, 255] ++ v4 := by
    constructor
    · rintro ⟨h1, h2⟩
      rw [← List.take_append_drop 12 ip, h1, h2]; rfl
    · rintro rfl
      exact ⟨rfl, rfl⟩
  refine ⟨?_, ?_, ?_⟩
  · rw [← key]; unfold to4
    rw [if_neg (by omega)]
    split <;> simp_all
  · rw [← key]; unfold ipEqual
    rw [if_neg (by omega), if_neg (by omega), if_pos ⟨h16, h4⟩]
    simp
  · rw [← key]; unfold ipEqual
    rw [if_neg (by omega), if_pos ⟨h4, h16⟩]
    simp only [Bool.and_eq_true, decide_eq_true_eq]
    exact ⟨fun h => ⟨h.1, h.2.symm⟩, fun h => ⟨h.1, h.2.symm⟩⟩

end Kindling.Conn.Lookup
