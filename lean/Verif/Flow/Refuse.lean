import Verif.Proto.Kafka
import Verif.Proto.Mysql
import Verif.Proto.DnsMsg
import Verif.Proto.Dubbo
import Verif.Proto.Rocketmq
/-
What each of the request parsers refuses, in terms of the first bytes of the payload.  Used by `Choose.lean` (C103).
-/
namespace Kindling.Flow
open Kindling Kindling.Agg Kindling.Proto

/-- A parser refuses a payload. -/
def Refused (r : Res (Bool × Msg)) : Prop := ∃ m, r = .ok (false, m)

/-! ## HTTP -/

/-- The words a request may start with: the methods and what is left of `GET` when the first byte is lost. -/
def words : List Bytes := bs "ET" :: Http.methods

theorem findBlank_take {d : Bytes} {j : Nat} (h : findBlank d = some j) : d[j]? = some 32 := by
  induction d generalizing j with
  | nil => simp [findBlank] at h
  | cons b r ih =>
    simp only [findBlank] at h
    split at h
    · cases h; simp_all
    · cases hr : findBlank r with
      | none => simp [hr] at h
      | some k => simp [hr] at h; subst h; simp [ih hr]

/-- Reading a word: what is read is the start of the payload; a blank follows if it is shorter than the limit. -/
theorem word_read (d : Bytes) (n : Nat) (hn : n < d.length) : ∃ j, j ≤ n ∧ (j < n → d[j]? = some 32) ∧
    readUntilBlankWithLength d 0 n = .ok (((if j < n then j + 1 else n : Nat) : Int), d.take j) := by
  simp only [readUntilBlankWithLength, Nat.add_zero, hn, ↓reduceIte, List.drop_zero, Nat.zero_add]
  cases hf : findBlank (d.take n) with
  | none =>
    refine ⟨n, Nat.le_refl _, fun h => absurd h (Nat.lt_irrefl _), ?_⟩
    simp only
    rw [slice_ok (by omega)]
    simp
  | some j =>
    have h1 := findBlank_take hf
    have hj : j < n := by
      have := (List.getElem?_eq_some_iff.1 h1).1
      simp at this; omega
    refine ⟨j, by omega, fun _ => by rw [List.getElem?_take_of_lt hj] at h1; exact h1, ?_⟩
    simp only
    rw [slice_ok (by omega)]
    simp only [if_pos hj, Res.bind_ok, Res.pure_eq]
    congr 2
    · omega
    · simp

theorem methods_short : ∀ m ∈ words, m.length < 8 := by decide +kernel

/-- HTTP takes only payloads that start with one of the words and a blank. -/
theorem http_refuses (cluster : Bytes → Bytes) (d : Bytes) (h : ∀ w ∈ words, ¬ (w ++ [32]) <+: d) : Refused (Http.parseRequest cluster d) := by
  obtain ⟨⟨⟨ok, m⟩, hr⟩, -⟩ := Http.http_never_panics cluster d []
  refine ⟨m, ?_⟩
  rw [hr]
  congr 2
  revert hr
  have hsl : slice d (0 : Nat) d.length = .ok ((d.drop 0).take d.length) := by rw [slice_ok (by omega)]; simp
  simp only [Http.parseRequest, Tree.single, Tree.run, Http.requestTree, Http.requestFastFail, hsl, Res.bind_ok, Res.pure_eq]
  by_cases hd : d.length < 14
  · simp only [List.drop_zero, List.take_length, hd, decide_true, ↓reduceIte, Res.bind_ok]
    intro h; cases h; rfl
  · obtain ⟨j, hj, hb, hw⟩ := word_read d 8 (by omega)
    have hno : d.take j ∉ words := by
      intro hm
      have hs := methods_short _ hm
      have hl : (d.take j).length = j := by simp; omega
      have hj8 : j < 8 := by omega
      refine h _ hm ?_
      have h2 : d[j]? = some 32 := hb hj8
      have hlt := (List.getElem?_eq_some_iff.1 h2).1
      have h3 : d[j]'hlt = 32 := by simpa [hlt] using h2
      have := List.take_prefix (j + 1) d
      rw [List.take_succ_eq_append_getElem hlt, h3] at this
      exact this
    have hn : d.take j ∉ Http.methods := fun e => hno (List.mem_cons_of_mem _ e)
    have hs : d.take j ≠ bs "ET" := fun e => hno (by rw [e]; exact List.mem_cons_self)
    simp only [List.drop_zero, List.take_length, hd, decide_false, Bool.false_eq_true, ↓reduceIte, Http.requestParse, hw, Res.bind_ok]
    simp only [Http.chooseMethod, if_neg hn, if_neg hs, Res.pure_eq, ite_self]
    intro h
    revert h
    generalize (((if j < 8 then j + 1 else 8 : Nat)) : Int) = o
    cases hi : idx d (o - 1) with
    | err => simp
    | panic => simp
    | ok b =>
      simp only [Res.bind_ok]
      split
      · simp only [Res.bind_ok]; intro h; cases h; rfl
      · cases hj : idx d o with
        | err => simp
        | panic => simp
        | ok c => simp only [Res.bind_ok]; intro h; cases h; rfl

theorem words_head : ∀ w ∈ words, ∃ b, w.head? = some b ∧ 67 ≤ b.toNat ∧ b.toNat ≤ 84 := by
  intro w hw
  revert w
  simp only [words, Http.methods, List.forall_mem_cons]
  exact ⟨⟨_, rfl, by decide, by decide⟩, ⟨_, rfl, by decide, by decide⟩, ⟨_, rfl, by decide, by decide⟩, ⟨_, rfl, by decide, by decide⟩, ⟨_, rfl, by decide, by decide⟩,
    ⟨_, rfl, by decide, by decide⟩, ⟨_, rfl, by decide, by decide⟩, ⟨_, rfl, by decide, by decide⟩, ⟨_, rfl, by decide, by decide⟩, fun _ h => nomatch h⟩

/-- The first byte is not the first letter of a word. -/
theorem http_refuses_first (cluster : Bytes → Bytes) {d : Bytes} {b : UInt8} (h : d[0]? = some b) (hb : b.toNat < 67 ∨ 84 < b.toNat) :
    Refused (Http.parseRequest cluster d) := by
  apply http_refuses
  intro w hw hp
  obtain ⟨x, hx, h1, h2⟩ := words_head w hw
  obtain ⟨t, rfl⟩ := hp
  cases w with
  | nil => cases hx
  | cons y r =>
    cases hx
    cases h
    omega

/-! ## MySQL -/

/-- The command byte is neither "quit" nor a statement. -/
theorem mysql_refuses {d : Bytes} {c : UInt8} (h : d[4]? = some c) (h1 : c ≠ 1) (h3 : c ≠ 3) (h22 : c ≠ 22) : Refused (Mysql.parseRequest d) := by
  have hi : idx d 4 = .ok c := idx_nat (i := 4) h
  have hl := (List.getElem?_eq_some_iff.1 h).1
  refine ⟨⟨d, 0, []⟩, ?_⟩
  simp only [Mysql.parseRequest, Tree.single, Tree.run, Mysql.requestTree, Mysql.shorter, show ¬ d.length < 5 by omega, decide_false, Res.pure_eq, Res.bind_ok,
    Bool.false_eq_true, ↓reduceIte, Mysql.goOn, Bool.not_true, List.isEmpty_cons]
  rw [Mysql.leaf_skip hi h22, Mysql.leaf_skip hi h3, Mysql.leaf_skip hi h1]
  rfl

/-! ## Redis -/

/-- What the model of the loop over frames returns; it always ends (`redis_terminates`). -/
def redisRequest (d : Bytes) : Res (Bool × Msg) := (Redis.parseRequest d).getD .panic
def redisResponse (d : Bytes) (a : Attrs) : Res (Bool × Msg) := (Redis.parseResponse d a).getD .panic

theorem redis_refuses {d : Bytes} {b : UInt8} (h : d[0]? = some b) (h1 : b ≠ 42) (h2 : b ≠ 36) (h3 : b ≠ 58) : Refused (redisRequest d) := by
  have hc : (Msg.mk d 0 []).cur = .ok b := idx_nat (i := 0) h
  refine ⟨⟨d, 0, []⟩, ?_⟩
  have hr := Redis.request_run hc
  rw [if_neg (by simp [h1, h2, h3])] at hr
  simp only [redisRequest, Redis.parseRequest, Tree.frames, hr]
  rfl

theorem parseInt_bytes {s : Bytes} (h : (Dec.parseInt 64 s).2 = true) : (0 : UInt8) ∉ s ∧ s ≠ [] := by
  by_cases ht : ∃ neg n, Dec.IsText s neg n
  · obtain ⟨neg, n, k, ht⟩ := ht
    have hd : (0 : UInt8) ∉ Dec.digits n := fun h0 => by have := (Dec.digits_all n 0 h0).1; simp at this
    have hne : Dec.digits n ≠ [] := Dec.digits_ne_nil n
    constructor
    · intro h0
      rcases ht with rfl | ⟨-, rfl⟩
      · simp only [List.mem_append, List.mem_replicate, hd, or_false] at h0
        rcases h0 with h0 | h0
        · split at h0 <;> simp at h0
        · exact absurd h0.2 (by decide)
      · simp only [List.mem_cons, List.mem_append, List.mem_replicate, hd, or_false] at h0
        rcases h0 with h0 | h0
        · exact absurd h0 (by decide)
        · exact absurd h0.2 (by decide)
    · rintro rfl
      rcases ht with ht | ⟨-, ht⟩
      · exact hne (by simpa using (List.append_eq_nil_iff.1 ht.symm).2)
      · cases ht
  · rw [((Dec.parseInt_spec 64 s).2 ht).1] at h
    cases h

theorem findCR_get {d : Bytes} {j : Nat} (h : findCR d = some j) : d[j]? = some 13 := by
  induction d generalizing j with
  | nil => simp [findCR] at h
  | cons b r ih =>
    simp only [findCR] at h
    split at h
    · cases h; simp_all
    · cases hr : findCR r with
      | none => simp [hr] at h
      | some k => simp [hr] at h; subst h; simp [ih hr]

/-- A zero as fourth byte: what follows the first byte is not a number. -/
theorem redis_refuses_zero {d : Bytes} (h : d[3]? = some 0) (hl : 5 ≤ d.length) : Refused (redisRequest d) := by
  obtain ⟨b, hc, hb⟩ : ∃ b, (Msg.mk d 0 []).cur = .ok b ∧ d[(0 : Nat)]? = some b := idx_ok (d := d) (i := 0) (by omega) (by omega)
  by_cases hk : b = 42 ∨ b = 36 ∨ b = 58
  · have hline : readUntilCRLF d 1 = .err ∨ ∃ o s, readUntilCRLF d 1 = .ok (o, s) ∧ (Dec.parseInt 64 s).2 = false := by
      simp only [readUntilCRLF]
      rw [if_neg (by omega)]
      have hz : ∀ n, 2 < n → (0 : UInt8) ∈ (d.drop 1).take n := by
        intro n hn
        refine List.mem_of_getElem? (i := 2) ?_
        rw [List.getElem?_take_of_lt hn, List.getElem?_drop]
        exact h
      have hbad : ∀ s : Bytes, (0 : UInt8) ∈ s ∨ s = [] → (Dec.parseInt 64 s).2 = false := by
        intro s hs
        cases he : (Dec.parseInt 64 s).2 with
        | false => rfl
        | true => exact absurd hs (by have := parseInt_bytes he; simp [this.1, this.2])
      cases hf : findCR (d.drop 1) with
      | none =>
        right
        simp only
        rw [slice_ok (by omega)]
        refine ⟨_, _, rfl, hbad _ (Or.inl (hz _ (by omega)))⟩
      | some j =>
        simp only
        by_cases hj : 3 ≤ j
        · split
          · right
            rw [slice_ok (by omega)]
            exact ⟨_, _, rfl, hbad _ (Or.inl (hz _ (by omega)))⟩
          · have hjl := (List.getElem?_eq_some_iff.1 (findCR_get hf)).1
            rw [List.length_drop] at hjl
            obtain ⟨c, hc, -⟩ := idx_ok (d := d) (i := ((1 + j + 1 : Nat) : Int)) (by omega) (by omega)
            rw [hc]
            simp only [Res.bind_ok]
            split
            · right
              rw [slice_ok (by omega)]
              exact ⟨_, _, rfl, hbad _ (Or.inl (hz _ (by omega)))⟩
            · exact Or.inl rfl
        · have hg := findCR_get hf
          rw [List.getElem?_drop] at hg
          rw [if_neg (by omega)]
          obtain rfl | rfl | rfl : j = 0 ∨ j = 1 ∨ j = 2 := by omega
          · obtain ⟨c, hc, -⟩ := idx_ok (d := d) (i := ((1 + 0 + 1 : Nat) : Int)) (by omega) (by omega)
            rw [hc]
            simp only [Res.bind_ok]
            split
            · right
              rw [slice_ok (by omega)]
              exact ⟨_, _, rfl, hbad _ (Or.inr (by simp))⟩
            · exact Or.inl rfl
          · left
            rw [show idx d ((1 + 1 + 1 : Nat) : Int) = .ok 0 from idx_nat h]
            rfl
          · rw [h] at hg
            cases hg
    have hfail : ∀ p, p = Redis.parseNumber ∨ p = Redis.parseBulk → p ⟨d, 0, []⟩ = Redis.failed ⟨d, 0, []⟩ := by
      intro p hp
      rcases hline with hl | ⟨o, s, hl, hs⟩
      · rcases hp with rfl | rfl <;> simp [Redis.parseNumber, Redis.parseBulk, hl]
      · rcases hp with rfl | rfl <;> simp [Redis.parseNumber, Redis.parseBulk, hl, hs]
    have hr : Redis.requestTree.run ⟨d, 0, []⟩ = .ok (.fail, ⟨d, 0, []⟩) := by
      refine Redis.request_dispatch hc hk ?_ (fun _ => rfl)
      obtain ⟨e1, e2, e3, -⟩ := Redis.leafOf_eqs
      rcases hk with rfl | rfl | rfl
      · rw [e1]; exact Redis.leaf_failed hc (hfail _ (.inl rfl))
      · rw [e2]; exact Redis.leaf_failed hc (hfail _ (.inr rfl))
      · rw [e3]; exact Redis.leaf_failed hc (hfail _ (.inl rfl))
    refine ⟨⟨d, 0, []⟩, ?_⟩
    simp only [redisRequest, Redis.parseRequest, Tree.frames, hr]
    rfl
  · exact redis_refuses hb (fun e => hk (.inl e)) (fun e => hk (.inr (.inl e))) (fun e => hk (.inr (.inr e)))

/-! ## Kafka -/

theorem supported_key {key ver : Int} (h : Kafka.Supported key ver) : 0 ≤ key ∧ key ≤ 61 ∧ 0 ≤ ver ∧ ver ≤ 12 := by
  obtain ⟨lo, hi, hm, h1, h2⟩ := h
  have : ∀ e ∈ Kafka.apis, 0 ≤ e.1 ∧ e.1 ≤ 61 ∧ 0 ≤ e.2.1 ∧ e.2.2 ≤ 12 := by decide +kernel
  obtain ⟨a, b, c, e⟩ := this _ hm
  simp only at a b c e
  omega

theorem orZero_ok (r : Res (Int × Int)) (h : r ≠ .panic) : ∃ v, Rocketmq.orZero r = .ok v := by
  cases r with
  | ok x => exact ⟨x.1, rfl⟩
  | err => exact ⟨0, rfl⟩
  | panic => exact absurd rfl h

theorem readInt16_some {d : Bytes} {i : Nat} {a b : UInt8} (ha : d[i]? = some a) (hb : d[i + 1]? = some b) :
    readInt16 d i = .ok (signed 16 (a.toNat * 256 + b.toNat), i + 2) := by
  have h2 := (List.getElem?_eq_some_iff.1 hb).1
  simp only [readInt16]
  rw [if_neg (by omega), if_neg (by omega), idx_nat ha, show ((i : Int) + 1) = ((i + 1 : Nat) : Int) by omega, idx_nat hb]
  simp only [Res.bind_ok, Res.pure_eq]
  rw [← Nat.shiftLeft_add_eq_or_of_lt (UInt8.toNat_lt b), Nat.shiftLeft_eq]

/-- The header is refused. -/
theorem kafka_refuses_header {d : Bytes} (h : 12 ≤ d.length → Kafka.requestHeader ⟨d, 0, []⟩ = .ok ((false, true), ⟨d, 0, []⟩)) : Refused (Kafka.parseRequest d) := by
  refine ⟨⟨d, 0, []⟩, ?_⟩
  by_cases hl : d.length < 12
  · simp [Kafka.parseRequest, Tree.single, Tree.run, Kafka.requestTree, Kafka.requestFF, hl]
  · simp [Kafka.parseRequest, Tree.single, Tree.run, Kafka.requestTree, Kafka.requestFF, hl, h (by omega)]

/-- The key or the version is not one of Kafka's. -/
theorem kafka_refuses {d : Bytes} {a b v w : UInt8} (h4 : d[4]? = some a) (h5 : d[5]? = some b) (h6 : d[6]? = some v) (h7 : d[7]? = some w)
    (hn : ¬ Kafka.Supported (signed 16 (a.toNat * 256 + b.toNat)) (signed 16 (v.toNat * 256 + w.toNat))) : Refused (Kafka.parseRequest d) := by
  apply kafka_refuses_header
  intro hl
  have hlen : ∃ x, Rocketmq.orZero (readInt32 d 0) = .ok x := by
    apply orZero_ok
    simp only [readInt32]
    rw [if_neg (by omega), if_neg (by omega)]
    obtain ⟨b0, e0, -⟩ := idx_ok (d := d) (i := 0) (by omega) (by omega)
    obtain ⟨b1, e1, -⟩ := idx_ok (d := d) (i := 0 + 1) (by omega) (by omega)
    obtain ⟨b2, e2, -⟩ := idx_ok (d := d) (i := 0 + 2) (by omega) (by omega)
    obtain ⟨b3, e3, -⟩ := idx_ok (d := d) (i := 0 + 3) (by omega) (by omega)
    simp only [e0, e1, e2, e3, Res.bind_ok, Res.pure_eq]; simp
  obtain ⟨x, hx⟩ := hlen
  have r4 := readInt16_some h4 h5
  have r6 := readInt16_some h6 h7
  have hv : Kafka.isValidVersion (signed 16 (a.toNat * 256 + b.toNat)) (signed 16 (v.toNat * 256 + w.toNat)) = false := by
    rw [Bool.eq_false_iff]; exact fun e => hn ((Kafka.valid_iff _ _).1 e)
  simp only [Kafka.requestHeader, hx, Res.bind_ok]
  split
  · rfl
  · rw [show readInt16 d 4 = _ from r4, show readInt16 d 6 = _ from r6]
    simp [Rocketmq.orZero, hv]

theorem signed_big {n : Nat} (h1 : 256 ≤ n) (h2 : n < 65536) : signed 16 n < 0 ∨ 256 ≤ signed 16 n := by
  simp only [signed]
  rw [Nat.mod_eq_of_lt (by omega)]
  split <;> omega

/-- The fifth byte is not zero. -/
theorem kafka_refuses_key {d : Bytes} {a : UInt8} (h4 : d[4]? = some a) (ha : a ≠ 0) : Refused (Kafka.parseRequest d) := by
  by_cases hl : d.length < 12
  · exact kafka_refuses_header (fun h => absurd hl (by omega))
  · obtain ⟨b, -, h5⟩ := idx_ok (d := d) (i := 5) (by omega) (by omega)
    obtain ⟨v, -, h6⟩ := idx_ok (d := d) (i := 6) (by omega) (by omega)
    obtain ⟨w, -, h7⟩ := idx_ok (d := d) (i := 7) (by omega) (by omega)
    refine kafka_refuses h4 h5 h6 h7 fun hs => ?_
    have := supported_key hs
    have h0 : a.toNat ≠ 0 := fun e => ha (by rw [← UInt8.toNat_inj]; exact e)
    have := signed_big (n := a.toNat * 256 + b.toNat) (by omega) (by have := UInt8.toNat_lt a; have := UInt8.toNat_lt b; omega)
    omega

/-- A negative length. -/
theorem kafka_refuses_length {d : Bytes} {a : UInt8} (h0 : d[0]? = some a) (ha : 128 ≤ a.toNat) : Refused (Kafka.parseRequest d) := by
  apply kafka_refuses_header
  intro hl
  have hlen : ∃ x, Rocketmq.orZero (readInt32 d 0) = .ok x ∧ x ≤ 8 := by
    simp only [readInt32]
    rw [if_neg (by omega), if_neg (by omega)]
    obtain ⟨b1, e1, -⟩ := idx_ok (d := d) (i := 0 + 1) (by omega) (by omega)
    obtain ⟨b2, e2, -⟩ := idx_ok (d := d) (i := 0 + 2) (by omega) (by omega)
    obtain ⟨b3, e3, -⟩ := idx_ok (d := d) (i := 0 + 3) (by omega) (by omega)
    simp only [show idx d 0 = .ok a from idx_nat (i := 0) h0, e1, e2, e3, Res.bind_ok, Res.pure_eq, Rocketmq.orZero]
    refine ⟨_, rfl, ?_⟩
    have l1 := UInt8.toNat_lt b1
    have l2 := UInt8.toNat_lt b2
    have l3 := UInt8.toNat_lt b3
    have l0 := UInt8.toNat_lt a
    have hn : a.toNat <<< 24 ||| b1.toNat <<< 16 ||| b2.toNat <<< 8 ||| b3.toNat = a.toNat * 16777216 + (b1.toNat * 65536 + (b2.toNat * 256 + b3.toNat)) := by
      have e1 : b2.toNat <<< 8 ||| b3.toNat = b2.toNat * 256 + b3.toNat := by rw [← Nat.shiftLeft_add_eq_or_of_lt l3, Nat.shiftLeft_eq]
      have e2 : b1.toNat <<< 16 ||| (b2.toNat * 256 + b3.toNat) = b1.toNat * 65536 + (b2.toNat * 256 + b3.toNat) := by
        rw [← Nat.shiftLeft_add_eq_or_of_lt (by omega), Nat.shiftLeft_eq]
      have e3 : a.toNat <<< 24 ||| (b1.toNat * 65536 + (b2.toNat * 256 + b3.toNat)) = a.toNat * 16777216 + (b1.toNat * 65536 + (b2.toNat * 256 + b3.toNat)) := by
        rw [← Nat.shiftLeft_add_eq_or_of_lt (by omega), Nat.shiftLeft_eq]
      rw [Nat.or_assoc, Nat.or_assoc, e1, e2, e3]
    rw [hn]
    simp only [signed]
    rw [Nat.mod_eq_of_lt (by omega)]
    split <;> omega
  obtain ⟨x, hx, h8⟩ := hlen
  simp only [Kafka.requestHeader, hx, Res.bind_ok, if_pos h8]
  rfl

/-! ## Dubbo -/

theorem dubbo_refuses {d : Bytes} (h : d[0]? ≠ some 0xda ∨ d[2]? = some 0) : Refused (Dubbo.parseRequest d) := by
  by_cases hl : d.length < 16
  · exact ⟨⟨d, 0, []⟩, by simp [Dubbo.parseRequest, Tree.single, Tree.run, Dubbo.requestTree, Dubbo.fastFail, hl]⟩
  · obtain ⟨a, h0, h0'⟩ := idx_ok (d := d) (i := 0) (by omega) (by omega)
    obtain ⟨b, h1, -⟩ := idx_ok (d := d) (i := 1) (by omega) (by omega)
    refine ⟨⟨d, 0, []⟩, ?_⟩
    simp only [Dubbo.parseRequest, Tree.single, Tree.run, Dubbo.requestTree, Dubbo.fastFail, hl, ↓reduceIte, h0, h1, Res.bind_ok]
    by_cases ha : a = 0xda
    · have h2 : d[2]? = some 0 := h.resolve_left (fun hn => hn (by rw [← ha]; exact h0'))
      simp only [ha, ne_eq, not_true_eq_false, ↓reduceIte, Res.pure_eq, Res.bind_ok]
      split
      · rfl
      · simp only [Dubbo.requestParse, Dubbo.contentKey, show idx d 2 = .ok 0 from idx_nat (i := 2) h2, Res.bind_ok]
        rfl
    · simp [ha]

/-! ## RocketMQ -/

theorem rocketmq_refuses_header (e : Rocketmq.Env) {d : Bytes} (h : 29 ≤ d.length → Rocketmq.getHeader e d = .ok none) : Refused (Rocketmq.parseRequest e d) := by
  refine ⟨⟨d, 0, []⟩, ?_⟩
  by_cases hl : d.length < 29
  · simp [Rocketmq.parseRequest, Tree.single, Tree.run, Rocketmq.requestTree, Rocketmq.fastFail, hl]
  · simp [Rocketmq.parseRequest, Tree.single, Tree.run, Rocketmq.requestTree, Rocketmq.fastFail, hl, Rocketmq.requestParse, h (by omega)]

theorem rocketmq_refuses (e : Rocketmq.Env) {d : Bytes} {t : UInt8} (h : d[4]? = some t) (h0 : t ≠ 0) (h1 : t ≠ 1) : Refused (Rocketmq.parseRequest e d) := by
  apply rocketmq_refuses_header
  intro _
  simp [Rocketmq.getHeader, show idx d 4 = .ok t from idx_nat (i := 4) h, h0, h1]

/-- `json.Unmarshal` does not read a text that is empty or starts with a zero byte. -/
def JsonText (e : Rocketmq.Env) : Prop := e.json [] = none ∧ ∀ r, e.json (0 :: r) = none

theorem rocketmq_refuses_zero (e : Rocketmq.Env) (hj : JsonText e) {d : Bytes} (h4 : d[4]? = some 0) (h8 : d[8]? = some 0) : Refused (Rocketmq.parseRequest e d) := by
  apply rocketmq_refuses_header
  intro hl
  have hlen : ∃ x, Rocketmq.orZero (readInt32 d 4) = .ok x := by
    simp only [readInt32]
    rw [if_neg (by omega), if_neg (by omega)]
    obtain ⟨b0, e0, -⟩ := idx_ok (d := d) (i := 4) (by omega) (by omega)
    obtain ⟨b1, e1, -⟩ := idx_ok (d := d) (i := 4 + 1) (by omega) (by omega)
    obtain ⟨b2, e2, -⟩ := idx_ok (d := d) (i := 4 + 2) (by omega) (by omega)
    obtain ⟨b3, e3, -⟩ := idx_ok (d := d) (i := 4 + 3) (by omega) (by omega)
    simp only [e0, e1, e2, e3, Res.bind_ok, Res.pure_eq, Rocketmq.orZero]; exact ⟨_, rfl⟩
  obtain ⟨x, hx⟩ := hlen
  simp only [Rocketmq.getHeader, show idx d 4 = .ok 0 from idx_nat (i := 4) h4, Res.bind_ok, ↓reduceIte, hx, readBytes]
  by_cases hc : (8 : Int) < 0 ∨ x < 0
  · rw [if_pos hc]
  · rw [if_neg hc]
    by_cases hc2 : (8 : Int) + x > d.length
    · rw [if_pos hc2]
    · rw [if_neg hc2, slice_ok (by omega)]
      simp only [Res.bind_ok, Res.pure_eq, Res.ok.injEq]
      have hd : d.drop 8 = 0 :: d.drop 9 := by
        have h9 := (List.getElem?_eq_some_iff.1 h8).1
        rw [List.drop_eq_getElem_cons h9]
        congr 1
        simpa [h9] using h8
      rw [show (8 : Int).toNat = 8 from rfl, hd]
      cases hn : ((8 : Int) + x - 8).toNat with
      | zero => exact hj.1
      | succ n => exact hj.2 _

/-- A header length of zero. -/
theorem rocketmq_refuses_empty (e : Rocketmq.Env) (hj : JsonText e) {d : Bytes} (h4 : d[4]? = some 0) (h5 : d[5]? = some 0) (h6 : d[6]? = some 0) (h7 : d[7]? = some 0) :
    Refused (Rocketmq.parseRequest e d) := by
  apply rocketmq_refuses_header
  intro hl
  have hx : readInt32 d 4 = .ok (0, 8) := by
    simp only [readInt32]
    rw [if_neg (by omega), if_neg (by omega), show idx d 4 = .ok 0 from idx_nat (i := 4) h4, show idx d (4 + 1) = .ok 0 from idx_nat (i := 5) h5,
      show idx d (4 + 2) = .ok 0 from idx_nat (i := 6) h6, show idx d (4 + 3) = .ok 0 from idx_nat (i := 7) h7]
    rfl
  simp only [Rocketmq.getHeader, show idx d 4 = .ok 0 from idx_nat (i := 4) h4, Res.bind_ok, ↓reduceIte, hx, Rocketmq.orZero, readBytes]
  rw [if_neg (by omega), if_neg (by omega), slice_ok (by omega)]
  simp [hj.1]

/-! ## DNS -/

theorem name_end {msg : Bytes} {off : Nat} {ls : List Bytes} {p e : Nat} (h : Dns.NameAt msg off ls p e) : off < e := by
  induction h with
  | root => omega
  | label _ _ _ _ _ _ ih => omega
  | pointer => omega

theorem readQueryLoop_room (d : Bytes) (mo n : Nat) : ∀ off dom r, Dns.readQueryLoop d mo n off dom = .ok r → 0 < n → off + 5 * n < d.length + 4 := by
  induction n with
  | zero => intro _ _ _ _ h; omega
  | succ n ih =>
    intro off dom r h _
    simp only [Dns.readQueryLoop] at h
    split at h
    · cases h
    · split at h
      · rename_i name o hu
        obtain ⟨ls, p, hn, -⟩ := (Dns.unpack_iff d off name o).1.1 hu
        have := name_end hn
        split at h
        · cases h
        · cases n with
          | zero => omega
          | succ n =>
            have := ih _ _ _ h (by omega)
            omega
      · cases h
      · cases h

/-- What the analyzer keeps of a parsed DNS message, dns_request.go:12-61: the fast-fail check and the parser. -/
def dnsRequest (d : Bytes) : Option (Nat × Bytes) :=
  if Dns.fastfail d then none else match Dns.parseRequest d 2 with
    | .ok a => some (a.id, a.domain)
    | _ => none

theorem u16_some {d : Bytes} {i : Nat} {a b : UInt8} (ha : d[i]? = some a) (hb : d[i + 1]? = some b) : Dns.u16OrZero d i = a.toNat * 256 + b.toNat := by
  have h2 := (List.getElem?_eq_some_iff.1 hb).1
  simp only [Dns.u16OrZero, readUInt16]
  rw [if_neg (by omega), if_neg (by omega), idx_nat ha, show ((i : Int) + 1) = ((i + 1 : Nat) : Int) by omega, idx_nat hb]
  simp only [Res.bind_ok, Res.pure_eq]
  rw [← Nat.shiftLeft_add_eq_or_of_lt (UInt8.toNat_lt b), Nat.shiftLeft_eq]

/-- A payload too short for the number of questions it states. -/
theorem dns_refuses_room {d : Bytes} (h : 13 ≤ d.length → Dns.u16OrZero d 6 ≠ 0 → d.length ≤ 5 * Dns.u16OrZero d 6 + 10) : dnsRequest d = none := by
  simp only [dnsRequest, Dns.fastfail]
  by_cases hl : d.length ≤ 12
  · simp [hl]
  · simp only [hl, decide_false, Bool.false_eq_true, ↓reduceIte, Dns.parseRequest]
    by_cases hz : Dns.u16OrZero d (2 + 4) = 0
    · simp [hz]
    · rw [if_neg hz]
      cases hq : Dns.readQuery d 2 (Dns.u16OrZero d (2 + 4)) with
      | err => rfl
      | panic => rfl
      | ok r =>
        have := readQueryLoop_room d 2 _ _ _ _ hq (Nat.pos_of_ne_zero hz)
        have := h (by omega) hz
        simp only [show 2 + 4 = 6 from rfl] at *
        omega

/-- The first question does not start like a name. -/
theorem dns_refuses_name {d : Bytes} {b : UInt8} (h : d[14]? = some b) (h1 : 64 ≤ b.toNat) (h2 : b.toNat < 192) : dnsRequest d = none := by
  simp only [dnsRequest, Dns.fastfail]
  have hl := (List.getElem?_eq_some_iff.1 h).1
  simp only [show ¬ d.length ≤ 12 by omega, decide_false, Bool.false_eq_true, ↓reduceIte, Dns.parseRequest]
  by_cases hz : Dns.u16OrZero d (2 + 4) = 0
  · simp [hz]
  · rw [if_neg hz]
    obtain ⟨n, hn⟩ : ∃ n, Dns.u16OrZero d (2 + 4) = n + 1 := ⟨_, (Nat.succ_pred_eq_of_pos (Nat.pos_of_ne_zero hz)).symm⟩
    rw [hn]
    simp only [Dns.readQuery, Dns.readQueryLoop]
    rw [if_neg (by omega)]
    cases hu : Dns.unpackDomainName d (2 + 12) with
    | err => rfl
    | panic => rfl
    | ok x =>
      obtain ⟨ls, p, hn, -⟩ := (Dns.unpack_iff d 14 x.1 x.2).1.1 hu
      exfalso
      generalize x.2 = o at hn
      cases hn with
      | root h' => rw [h] at h'; cases h'; simp at h1
      | label _ h63 hc _ _ _ =>
        rw [h] at hc
        cases hc
        simp at h1 h2
        omega
      | pointer hi lo hhi hlo h1' _ _ =>
        rw [h] at h1'
        cases h1'
        simp at h1 h2
        omega

theorem get_prefix {e d : Bytes} (h : e <+: d) {i : Nat} (hi : i < e.length) : e[i]? = d[i]? := by
  obtain ⟨t, rfl⟩ := h
  rw [List.getElem?_append_left hi]

/-- The same for the start of a payload: the first of several segments. -/
theorem dns_refuses_count {e d : Bytes} (h : e <+: d) {v w : UInt8} (h6 : d[6]? = some v) (h7 : d[7]? = some w)
    (hr : v.toNat * 256 + w.toNat ≠ 0 → d.length ≤ 5 * (v.toNat * 256 + w.toNat) + 10) : dnsRequest e = none := by
  apply dns_refuses_room
  intro hl hz
  have g6 := get_prefix h (i := 6) (by omega)
  have g7 := get_prefix h (i := 7) (by omega)
  rw [u16_some (g6.trans h6) (g7.trans h7)] at hz ⊢
  have := hr hz
  have := h.length_le
  omega

theorem dns_refuses_start {e d : Bytes} (h : e <+: d) {b : UInt8} (hb : d[14]? = some b) (h1 : 64 ≤ b.toNat) (h2 : b.toNat < 192) : dnsRequest e = none := by
  by_cases hl : 14 < e.length
  · exact dns_refuses_name ((get_prefix h hl).trans hb) h1 h2
  · apply dns_refuses_room
    intro _ hz
    omega

end Kindling.Flow
