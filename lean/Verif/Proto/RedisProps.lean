import Verif.Proto.Redis
import Verif.Proto.ReaderProps
/-
C20 (and the Redis part of C21): RESP payloads.
-/
namespace Kindling.Proto.Redis
open Kindling Kindling.Agg Kindling.Proto

/-! ## Specification: RESP encoding (redis.io/docs/reference/protocol-spec) -/

inductive Frame where
  | array (n : Int)
  | bulk (b : Bytes)
  | nullBulk
  | int (i : Int)
  | simple (s : Bytes)
  | error (s : Bytes)
deriving DecidableEq, Repr

def crlf : Bytes := [13, 10]

def Frame.enc : Frame → Bytes
  | .array n => 42 :: Dec.formatInt n ++ crlf
  | .bulk b => 36 :: Dec.formatInt b.length ++ crlf ++ b ++ crlf
  | .nullBulk => 36 :: Dec.formatInt (-1) ++ crlf
  | .int i => 58 :: Dec.formatInt i ++ crlf
  | .simple s => 43 :: s ++ crlf
  | .error s => 45 :: s ++ crlf

def encode (fs : List Frame) : Bytes := (fs.map Frame.enc).flatten

def Int64 (i : Int) : Prop := -9223372036854775808 ≤ i ∧ i < 9223372036854775808

/-- Numbers fit 64 bits, and no text contains a carriage return. -/
def Frame.Clean : Frame → Prop
  | .array n => Int64 n
  | .bulk b => Int64 b.length ∧ (13 : UInt8) ∉ b
  | .nullBulk => True
  | .int i => Int64 i
  | .simple s => (13 : UInt8) ∉ s
  | .error s => (13 : UInt8) ∉ s

/-- Frames a client sends. -/
def Frame.Client : Frame → Prop
  | .simple _ => False
  | .error _ => False
  | _ => True

/-- The request of a client: an array of bulk strings. -/
def request (args : List Bytes) : List Frame := .array args.length :: args.map .bulk

/-- The last of the strings that names a command. -/
def lastCommand : List Frame → Option Bytes
  | [] => none
  | f :: r => match lastCommand r with
    | some c => some c
    | none => match f with
      | .bulk b => if isCommand b then some b else none
      | _ => none

/-- The first error text that is not empty. -/
def firstError : List Frame → Option Bytes
  | [] => none
  | .error s :: r => if s = [] then firstError r else some s
  | _ :: r => firstError r

/-! ## The table of commands -/

/-- Spec: the names of the commands, as they are documented. -/
def names : List String :=
  ["ACL LOAD", "ACL SAVE", "ACL LIST", "ACL USERS", "ACL GETUSER", "ACL SETUSER", "ACL DELUSER", "ACL CAT", "ACL GENPASS", "ACL WHOAMI",
   "ACL LOG", "ACL HELP", "APPEND", "AUTH", "BGREWRITEAOF", "BGSAVE", "BITCOUNT", "BITFIELD", "BITOP", "BITPOS", "BLPOP", "BRPOP",
   "BRPOPLPUSH", "BLMOVE", "BZPOPMIN", "BZPOPMAX", "CLIENT CACHING", "CLIENT ID", "CLIENT INFO", "CLIENT KILL", "CLIENT LIST",
   "CLIENT GETNAME", "CLIENT GETREDIR", "CLIENT UNPAUSE", "CLIENT PAUSE", "CLIENT REPLY", "CLIENT SETNAME", "CLIENT TRACKING",
   "CLIENT TRACKINGINFO", "CLIENT UNBLOCK", "CLUSTER ADDSLOTS", "CLUSTER BUMPEPOCH", "CLUSTER COUNT-FAILURE-REPORTS",
   "CLUSTER COUNTKEYSINSLOT", "CLUSTER DELSLOTS", "CLUSTER FAILOVER", "CLUSTER FLUSHSLOTS", "CLUSTER FORGET", "CLUSTER GETKEYSINSLOT",
   "CLUSTER INFO", "CLUSTER KEYSLOT", "CLUSTER MEET", "CLUSTER MYID", "CLUSTER NODES", "CLUSTER REPLICATE", "CLUSTER RESET",
   "CLUSTER SAVECONFIG", "CLUSTER SET-CONFIG-EPOCH", "CLUSTER SETSLOT", "CLUSTER SLAVES", "CLUSTER REPLICAS", "CLUSTER SLOTS", "COMMAND",
   "COMMAND COUNT", "COMMAND GETKEYS", "COMMAND INFO", "CONFIG GET", "CONFIG REWRITE", "CONFIG SET", "CONFIG RESETSTAT", "COPY", "DBSIZE",
   "DEBUG OBJECT", "DEBUG SEGFAULT", "DECR", "DECRBY", "DEL", "DISCARD", "DUMP", "ECHO", "EVAL", "EVALSHA", "EXEC", "EXISTS", "EXPIRE",
   "EXPIREAT", "FAILOVER", "FLUSHALL", "FLUSHDB", "GEOADD", "GEOHASH", "GEOPOS", "GEODIST", "GEORADIUS", "GEORADIUSBYMEMBER", "GEOSEARCH",
   "GEOSEARCHSTORE", "GET", "GETBIT", "GETDEL", "GETEX", "GETRANGE", "GETSET", "HDEL", "HELLO", "HEXISTS", "HGET", "HGETALL", "HINCRBY",
   "HINCRBYFLOAT", "HKEYS", "HLEN", "HMGET", "HMSET", "HSET", "HSETNX", "HRANDFIELD", "HSTRLEN", "HVALS", "INCR", "INCRBY", "INCRBYFLOAT",
   "INFO", "LOLWUT", "KEYS", "LASTSAVE", "LINDEX", "LINSERT", "LLEN", "LPOP", "LPOS", "LPUSH", "LPUSHX", "LRANGE", "LREM", "LSET", "LTRIM",
   "MEMORY DOCTOR", "MEMORY HELP", "MEMORY MALLOC-STATS", "MEMORY PURGE", "MEMORY STATS", "MEMORY USAGE", "MGET", "MIGRATE", "MODULE LIST",
   "MODULE LOAD", "MODULE UNLOAD", "MONITOR", "MOVE", "MSET", "MSETNX", "MULTI", "OBJECT", "PERSIST", "PEXPIRE", "PEXPIREAT", "PFADD",
   "PFCOUNT", "PFMERGE", "PING", "PSETEX", "PSUBSCRIBE", "PUBSUB", "PTTL", "PUBLISH", "PUNSUBSCRIBE", "QUIT", "RANDOMKEY", "READONLY",
   "READWRITE", "RENAME", "RENAMENX", "RESET", "RESTORE", "ROLE", "RPOP", "RPOPLPUSH", "LMOVE", "RPUSH", "RPUSHX", "SADD", "SAVE", "SCARD",
   "SCRIPT DEBUG", "SCRIPT EXISTS", "SCRIPT FLUSH", "SCRIPT KILL", "SCRIPT LOAD", "SDIFF", "SDIFFSTORE", "SELECT", "SET", "SETBIT",
   "SETEX", "SETNX", "SETRANGE", "SHUTDOWN", "SINTER", "SINTERSTORE", "SISMEMBER", "SMISMEMBER", "SLAVEOF", "REPLICAOF", "SLOWLOG",
   "SMEMBERS", "SMOVE", "SORT", "SPOP", "SRANDMEMBER", "SREM", "STRALGO", "STRLEN", "SUBSCRIBE", "SUNION", "SUNIONSTORE", "SWAPDB", "SYNC",
   "PSYNC", "TIME", "TOUCH", "TTL", "TYPE", "UNSUBSCRIBE", "UNLINK", "UNWATCH", "WAIT", "WATCH", "ZADD", "ZCARD", "ZCOUNT", "ZDIFF",
   "ZDIFFSTORE", "ZINCRBY", "ZINTER", "ZINTERSTORE", "ZLEXCOUNT", "ZPOPMAX", "ZPOPMIN", "ZRANDMEMBER", "ZRANGESTORE", "ZRANGE",
   "ZRANGEBYLEX", "ZREVRANGEBYLEX", "ZRANGEBYSCORE", "ZRANK", "ZREM", "ZREMRANGEBYLEX", "ZREMRANGEBYRANK", "ZREMRANGEBYSCORE", "ZREVRANGE",
   "ZREVRANGEBYSCORE", "ZREVRANK", "ZSCORE", "ZUNION", "ZMSCORE", "ZUNIONSTORE", "SCAN", "SSCAN", "HSCAN", "ZSCAN", "XINFO", "XADD",
   "XTRIM", "XDEL", "XRANGE", "XREVRANGE", "XLEN", "XREAD", "XGROUP", "XREADGROUP", "XACK", "XCLAIM", "XAUTOCLAIM", "XPENDING",
   "LATENCY DOCTOR", "LATENCY GRAPH", "LATENCY HISTORY", "LATENCY LATEST", "LATENCY RESET", "LATENCY HELP", "SENTINEL", "REPLCONF ACK"]

theorem commands_names : commands = names.map bs := by decide +kernel

theorem names_short : ∀ c ∈ commands, c.length ≤ maxCommandLen := by decide +kernel

/-- The letters only: `a` to `z` become `A` to `Z`, every other byte stays. -/
theorem upper_letters : (∀ i < 26, upper (UInt8.ofNat (97 + i)) = UInt8.ofNat (65 + i)) ∧ ∀ b : UInt8, ¬ (97 ≤ b.toNat ∧ b.toNat ≤ 122) → upper b = b := by
  refine ⟨by decide +kernel, fun b h => ?_⟩
  rw [upper, if_neg]
  rw [UInt8.le_iff_toNat_le, UInt8.le_iff_toNat_le]
  exact h

/-- C20: a string is taken for a command iff, in capitals, it is one of the documented names. -/
theorem isCommand_iff (k : Bytes) : isCommand k = true ↔ ∃ c ∈ names, k.map upper = bs c := by
  rw [isCommand]
  constructor
  · intro h
    split at h
    · exact absurd h Bool.false_ne_true
    · rw [List.contains_iff_mem, commands_names] at h
      obtain ⟨c, hc, e⟩ := List.mem_map.1 h
      exact ⟨c, hc, e.symm⟩
  · rintro ⟨c, hc, e⟩
    have hm : bs c ∈ commands := by rw [commands_names]; exact List.mem_map_of_mem hc
    have hl := names_short _ hm
    rw [← e, List.length_map] at hl
    rw [if_neg (by omega), List.contains_iff_mem, e]
    exact hm

/-- C20, disagreement: the names of two words are never found, because a client sends the words as two strings. The first
words of these commands are no names themselves. -/
def firstWords : List String := ["ACL", "CLIENT", "CLUSTER", "CONFIG", "DEBUG", "MEMORY", "MODULE", "SCRIPT", "LATENCY", "REPLCONF"]

theorem first_words_unknown : ∀ w ∈ firstWords, isCommand (bs w) = false := by decide +kernel

/-- C20, disagreement: a command of two words is reported under an argument, or not at all: `CONFIG GET x` is reported
as `GET`, and `CLIENT LIST` has no command. -/
theorem two_word_command_lost (w : String) (hw : w ∈ firstWords) (rest : List Bytes) :
    lastCommand (request (bs w :: rest)) = lastCommand (rest.map .bulk) := by
  have h1 := first_words_unknown w hw
  cases h : lastCommand (rest.map Frame.bulk) <;> simp [request, lastCommand, h, h1]

example : lastCommand (request [bs "CONFIG", bs "GET", bs "maxmemory"]) = some (bs "GET") ∧ lastCommand (request [bs "CLIENT", bs "LIST"]) = none := by
  decide +kernel

/-! ## Reading a line -/

theorem findCR_none {s : Bytes} (h : (13 : UInt8) ∉ s) : findCR s = none := by
  induction s with
  | nil => rfl
  | cons b r ih =>
    have hb : b ≠ 13 := fun e => h (by simp [e])
    simp [findCR, hb, ih (fun hr => h (by simp [hr]))]

theorem findCR_append {s t : Bytes} (h : (13 : UInt8) ∉ s) : findCR (s ++ 13 :: t) = some s.length := by
  induction s with
  | nil => simp [findCR]
  | cons b r ih =>
    have hb : b ≠ 13 := fun e => h (by simp [e])
    simp [findCR, hb, ih (fun hr => h (by simp [hr]))]

theorem readLine (pre s post : Bytes) (h : (13 : UInt8) ∉ s) (start : Nat) (hs : start = pre.length) :
    readUntilCRLF (pre ++ (s ++ (crlf ++ post))) start = .ok (((pre.length + s.length + 2 : Nat) : Int), s) := by
  subst hs
  rw [show crlf ++ post = 13 :: 10 :: post from rfl]
  have hi : idx (pre ++ (s ++ 13 :: 10 :: post)) ((pre.length + s.length + 1 : Nat) : Int) = .ok 10 := by
    apply idx_nat
    rw [List.getElem?_append_right (by omega), List.getElem?_append_right (by omega)]
    simp [show pre.length + s.length + 1 - pre.length - s.length = 1 by omega]
  have hsl := slice_nat pre s (13 :: 10 :: post)
  rw [List.append_assoc] at hsl
  have hf : findCR ((pre ++ (s ++ 13 :: 10 :: post)).drop pre.length) = some s.length := by
    rw [List.drop_left, findCR_append h]
  have hlen : (pre ++ (s ++ 13 :: 10 :: post)).length = pre.length + s.length + post.length + 2 := by simp; omega
  generalize pre ++ (s ++ 13 :: 10 :: post) = d at *
  simp only [readUntilCRLF]
  rw [if_neg (by omega), hf]
  simp only
  rw [if_neg (by omega), hi]
  simp only [Res.bind_ok, ↓reduceIte]
  rw [hsl]
  simp

theorem findCR_mem {s : Bytes} (h : (13 : UInt8) ∈ s) : ∃ j, j < s.length ∧ ∀ t, findCR (s ++ t) = some j := by
  induction s with
  | nil => simp at h
  | cons b r ih =>
    by_cases hb : b = 13
    · exact ⟨0, by simp, by simp [findCR, hb]⟩
    · rcases List.mem_cons.1 h with h | h
      · exact absurd h.symm hb
      · obtain ⟨j, hj, hf⟩ := ih h
        exact ⟨j + 1, by simp; omega, by simp [findCR, hb, hf]⟩

/-- A line whose text contains a carriage return is not read as this text. -/
theorem readLine_cr (pre s post : Bytes) (h : (13 : UInt8) ∈ s) (start : Nat) (hs : start = pre.length) :
    readUntilCRLF (pre ++ (s ++ (crlf ++ post))) start = .err ∨
    ∃ o v, readUntilCRLF (pre ++ (s ++ (crlf ++ post))) start = .ok (o, v) ∧ v.length < s.length := by
  subst hs
  obtain ⟨j, hj, hf⟩ := findCR_mem h
  have hf : findCR ((pre ++ (s ++ (crlf ++ post))).drop pre.length) = some j := by
    rw [List.drop_left, hf]
  have hlen : (pre ++ (s ++ (crlf ++ post))).length = pre.length + s.length + post.length + 2 := by simp [crlf]; omega
  generalize pre ++ (s ++ (crlf ++ post)) = d at *
  simp only [readUntilCRLF]
  rw [if_neg (by omega), hf]
  simp only
  rw [if_neg (by omega)]
  obtain ⟨c, hc, _⟩ := idx_ok (d := d) (i := ((pre.length + j + 1 : Nat) : Int)) (by omega) (by omega)
  rw [hc]
  simp only [Res.bind_ok]
  split
  · rw [slice_ok (by omega)]
    refine .inr ⟨_, _, rfl, ?_⟩
    simp; omega
  · exact .inl rfl

/-! ## One frame -/

theorem digits_no_cr (i : Int) : (13 : UInt8) ∉ Dec.formatInt i := by
  intro h
  simp only [Dec.formatInt] at h
  split at h
  · rcases List.mem_cons.1 h with h | h
    · simp at h
    · have := Dec.digits_all _ _ h; simp at this
  · have := Dec.digits_all _ _ h; simp at this

theorem parse_format (i : Int) (h : Int64 i) : Dec.parseInt 64 (Dec.formatInt i) = (i, true) := by
  obtain ⟨h1, h2⟩ := h
  exact Dec.parseInt_formatInt 64 i (by simpa using h1) (by simpa using h2)

/-- What a frame does to the attributes, none of which is named like a command. -/
def effect (a : Attrs) : Frame → Attrs
  | .bulk b => if isCommand b then AMap.set (AMap.set a kContentKey (.str (Text.formatUtf8 b))) kCommand (.str (Text.formatUtf8 b)) else a
  | .error s => if s = [] ∨ (AMap.get a kErrMsg).isSome then a
    else AMap.set (AMap.set (AMap.set a kErrMsg (.str (Text.formatUtf8 s))) kIsError (.bool true)) kErrorType (.int 3)
  | _ => a

/-- No attribute is named like a command. -/
def NoCommandKey (a : Attrs) : Prop := ∀ k, isCommand k → AMap.get a k = none

theorem labels_not_commands : isCommand kContentKey = false ∧ isCommand kCommand = false ∧ isCommand kErrMsg = false ∧
    isCommand kIsError = false ∧ isCommand kErrorType = false := by
  decide +kernel

attribute [local irreducible] isCommand

theorem noCommandKey_set {a : Attrs} (h : NoCommandKey a) {k : Bytes} {v : AttrVal} (hk : isCommand k = false) :
    NoCommandKey (AMap.set a k v) := by
  intro k' hk'
  rw [AMap.get_set]
  split
  · rename_i e; rw [← e, hk] at hk'; exact absurd hk' Bool.false_ne_true
  · exact h k' hk'

theorem effect_noCommandKey {a : Attrs} (h : NoCommandKey a) (f : Frame) : NoCommandKey (effect a f) := by
  obtain ⟨h1, h2, h3, h4, h5⟩ := labels_not_commands
  cases f <;> simp only [effect] <;> try exact h
  · split
    · exact noCommandKey_set (noCommandKey_set h h1) h2
    · exact h
  · split
    · exact h
    · exact noCommandKey_set (noCommandKey_set (noCommandKey_set h h3) h4) h5

/-- What parsing a frame that ends at `o` gives. -/
def after (d : Bytes) (o : Nat) (a : Attrs) : Res (Status × Msg) :=
  .ok (if d.length ≤ o then .complete else .ok, ⟨d, o, a⟩)

theorem cur_at (pre : Bytes) (b : UInt8) (post : Bytes) (a : Attrs) : (Msg.mk (pre ++ b :: post) pre.length a).cur = .ok b := by
  simp only [Msg.cur]
  apply idx_nat
  simp

/-- A leaf whose parser finishes. -/
theorem leaf_finish {c : UInt8} {p : ParseFn} {m m' : Msg} {o : Nat} (hc : m.cur = .ok c) (hp : p m = finish m' (o : Int)) :
    Leaf.run ⟨startsNot c, p⟩ m = .ok (if m'.data.length ≤ o then .complete else .ok, { m' with offset := o }) := by
  simp only [Leaf.run, startsNot, hc, Res.bind_ok, Res.pure_eq, bne_self_eq_false, Bool.false_eq_true, ↓reduceIte, hp, finish]
  simp only [Bool.not_true, Bool.false_eq_true, ↓reduceIte, Msg.isComplete, Int.toNat_natCast, decide_eq_true_eq]
  split <;> rfl

theorem leaf_failed {c : UInt8} {p : ParseFn} {m : Msg} (hc : m.cur = .ok c) (hp : p m = failed m) :
    Leaf.run ⟨startsNot c, p⟩ m = .ok (.fail, m) := by
  simp [Leaf.run, startsNot, hc, hp, failed]

theorem leaf_other {c b : UInt8} {p : ParseFn} {m : Msg} (hc : m.cur = .ok b) (h : b ≠ c) :
    Leaf.run ⟨startsNot c, p⟩ m = .ok (.fail, m) := by
  simp [Leaf.run, startsNot, hc, h]

theorem children_skip {l : Leaf} {ls : List Leaf} {m : Msg} (h : l.run m = .ok (.fail, m)) : runChildren (l :: ls) m = runChildren ls m := by
  simp [runChildren, h]

theorem children_take {l : Leaf} {ls : List Leaf} {m m' : Msg} {s : Status} (h : l.run m = .ok (s, m')) (hs : s ≠ .fail) :
    runChildren (l :: ls) m = .ok (s, m') := by
  simp [runChildren, h, hs]

theorem request_run {m : Msg} {b : UInt8} (hc : m.cur = .ok b) : requestTree.run m =
    if [42, 36, 58].contains b then runChildren requestTree.children m else .ok (.fail, m) := by
  simp only [Tree.run, requestTree, startsNone, hc, Res.bind_ok, Res.pure_eq, parseRoot]
  cases [42, 36, 58].contains b <;> simp

theorem response_run {m : Msg} {b : UInt8} (hc : m.cur = .ok b) : responseTree.run m =
    if [43, 45, 42, 36, 58].contains b then runChildren responseTree.children m else .ok (.fail, m) := by
  simp only [Tree.run, responseTree, startsNone, hc, Res.bind_ok, Res.pure_eq, parseRoot]
  cases [43, 45, 42, 36, 58].contains b <;> simp

/-- The leaf that handles frames with first byte `b`. -/
def leafOf (b : UInt8) : Leaf :=
  if b = 42 then ⟨startsNot 42, parseNumber⟩ else if b = 36 then ⟨startsNot 36, parseBulk⟩
  else if b = 58 then ⟨startsNot 58, parseNumber⟩ else if b = 43 then ⟨startsNot 43, parseSimple⟩ else ⟨startsNot 45, parseError⟩

theorem children_nil (m : Msg) : runChildren [] m = .ok (.fail, m) := rfl

theorem leafOf_eqs : leafOf 42 = ⟨startsNot 42, parseNumber⟩ ∧ leafOf 36 = ⟨startsNot 36, parseBulk⟩ ∧
    leafOf 58 = ⟨startsNot 58, parseNumber⟩ ∧ leafOf 43 = ⟨startsNot 43, parseSimple⟩ ∧ leafOf 45 = ⟨startsNot 45, parseError⟩ := by
  refine ⟨rfl, rfl, rfl, rfl, rfl⟩

/-- Each frame is handled by the leaf for its first byte, whose failure is final. -/
theorem request_dispatch {m : Msg} {b : UInt8} (hc : m.cur = .ok b) (hb : b = 42 ∨ b = 36 ∨ b = 58)
    {s : Status} {m' : Msg} (hl : (leafOf b).run m = .ok (s, m')) (hm : s = .fail → m' = m) : requestTree.run m = .ok (s, m') := by
  obtain ⟨e1, e2, e3, e4, e5⟩ := leafOf_eqs
  rw [request_run hc]
  by_cases hs : s = .fail
  · have := hm hs; subst hs this
    rcases hb with rfl | rfl | rfl <;> simp only [requestTree] <;> simp only [e1, e2, e3] at hl
    · rw [if_pos (by decide), children_skip hl, children_skip (leaf_other hc (by decide)), children_skip (leaf_other hc (by decide)), children_nil]
    · rw [if_pos (by decide), children_skip (leaf_other hc (by decide)), children_skip hl, children_skip (leaf_other hc (by decide)), children_nil]
    · rw [if_pos (by decide), children_skip (leaf_other hc (by decide)), children_skip (leaf_other hc (by decide)), children_skip hl, children_nil]
  · rcases hb with rfl | rfl | rfl <;> simp only [requestTree] <;> simp only [e1, e2, e3] at hl
    · rw [if_pos (by decide), children_take hl hs]
    · rw [if_pos (by decide), children_skip (leaf_other hc (by decide)), children_take hl hs]
    · rw [if_pos (by decide), children_skip (leaf_other hc (by decide)), children_skip (leaf_other hc (by decide)), children_take hl hs]

theorem response_dispatch {m : Msg} {b : UInt8} (hc : m.cur = .ok b) (hb : b = 42 ∨ b = 36 ∨ b = 58 ∨ b = 43 ∨ b = 45)
    {s : Status} {m' : Msg} (hl : (leafOf b).run m = .ok (s, m')) (hm : s = .fail → m' = m) : responseTree.run m = .ok (s, m') := by
  obtain ⟨e1, e2, e3, e4, e5⟩ := leafOf_eqs
  have sk : ∀ (c : UInt8) (p : ParseFn) (ls : List Leaf), b ≠ c → runChildren (⟨startsNot c, p⟩ :: ls) m = runChildren ls m :=
    fun c p ls h => children_skip (leaf_other hc h)
  rw [response_run hc]
  by_cases hs : s = .fail
  · have := hm hs; subst hs this
    rcases hb with rfl | rfl | rfl | rfl | rfl <;> simp only [responseTree] <;> simp only [e1, e2, e3, e4, e5] at hl
    · rw [if_pos (by decide), children_skip hl, sk, sk, sk, sk, children_nil] <;> decide
    · rw [if_pos (by decide), sk, children_skip hl, sk, sk, sk, children_nil] <;> decide
    · rw [if_pos (by decide), sk, sk, children_skip hl, sk, sk, children_nil] <;> decide
    · rw [if_pos (by decide), sk, sk, sk, children_skip hl, sk, children_nil] <;> decide
    · rw [if_pos (by decide), sk, sk, sk, sk, children_skip hl, children_nil] <;> decide
  · rcases hb with rfl | rfl | rfl | rfl | rfl <;> simp only [responseTree] <;> simp only [e1, e2, e3, e4, e5] at hl
    · rw [if_pos (by decide), children_take hl hs]
    · rw [if_pos (by decide), sk, children_take hl hs] <;> decide
    · rw [if_pos (by decide), sk, sk, children_take hl hs] <;> decide
    · rw [if_pos (by decide), sk, sk, sk, children_take hl hs] <;> decide
    · rw [if_pos (by decide), sk, sk, sk, sk, children_take hl hs] <;> decide

/-- The first byte of a frame. -/
def Frame.head : Frame → UInt8
  | .array _ => 42
  | .bulk _ => 36
  | .nullBulk => 36
  | .int _ => 58
  | .simple _ => 43
  | .error _ => 45

/-- The leaf for a frame reads it completely. -/
theorem leaf_frame (f : Frame) (hf : f.Clean) (pre post : Bytes) (a : Attrs) (ha : NoCommandKey a) :
    (leafOf f.head).run ⟨pre ++ (f.enc ++ post), pre.length, a⟩ =
      after (pre ++ (f.enc ++ post)) (pre.length + f.enc.length) (effect a f) := by
  obtain ⟨e1, e2, e3, e4, e5⟩ := leafOf_eqs
  cases f with
  | array n =>
    have hd : pre ++ (Frame.enc (.array n) ++ post) = (pre ++ [42]) ++ (Dec.formatInt n ++ (crlf ++ post)) := by simp [Frame.enc]
    have hl := readLine (pre ++ [42]) (Dec.formatInt n) post (digits_no_cr n) (pre.length + 1) (by simp)
    have hc : (Msg.mk (pre ++ (Frame.enc (.array n) ++ post)) pre.length a).cur = .ok 42 := cur_at pre 42 _ a
    rw [← hd] at hl
    simp only [Frame.head, e1]
    rw [leaf_finish (o := pre.length + (Frame.enc (.array n)).length) (m' := ⟨pre ++ (Frame.enc (.array n) ++ post), pre.length, a⟩) hc]
    · rfl
    · simp only [parseNumber, hl, parse_format n hf, ↓reduceIte]
      congr 2; simp [Frame.enc, crlf]; omega
  | int n =>
    have hd : pre ++ (Frame.enc (.int n) ++ post) = (pre ++ [58]) ++ (Dec.formatInt n ++ (crlf ++ post)) := by simp [Frame.enc]
    have hl := readLine (pre ++ [58]) (Dec.formatInt n) post (digits_no_cr n) (pre.length + 1) (by simp)
    have hc : (Msg.mk (pre ++ (Frame.enc (.int n) ++ post)) pre.length a).cur = .ok 58 := cur_at pre 58 _ a
    rw [← hd] at hl
    simp only [Frame.head, e3]
    rw [leaf_finish (o := pre.length + (Frame.enc (.int n)).length) (m' := ⟨pre ++ (Frame.enc (.int n) ++ post), pre.length, a⟩) hc]
    · rfl
    · simp only [parseNumber, hl, parse_format n hf, ↓reduceIte]
      congr 2; simp [Frame.enc, crlf]; omega
  | nullBulk =>
    have hd : pre ++ (Frame.enc .nullBulk ++ post) = (pre ++ [36]) ++ (Dec.formatInt (-1) ++ (crlf ++ post)) := by simp [Frame.enc]
    have hl := readLine (pre ++ [36]) (Dec.formatInt (-1)) post (digits_no_cr _) (pre.length + 1) (by simp)
    have hc : (Msg.mk (pre ++ (Frame.enc .nullBulk ++ post)) pre.length a).cur = .ok 36 := cur_at pre 36 _ a
    rw [← hd] at hl
    simp only [Frame.head, e2]
    rw [leaf_finish (o := pre.length + (Frame.enc .nullBulk).length) (m' := ⟨pre ++ (Frame.enc .nullBulk ++ post), pre.length, a⟩) hc]
    · rfl
    · simp only [parseBulk, hl, parse_format (-1) (by simp [Int64]), ↓reduceIte]
      congr 2; simp [Frame.enc, crlf]; omega
  | simple s =>
    have hd : pre ++ (Frame.enc (.simple s) ++ post) = (pre ++ [43]) ++ (s ++ (crlf ++ post)) := by simp [Frame.enc]
    have hl := readLine (pre ++ [43]) s post hf (pre.length + 1) (by simp)
    have hc : (Msg.mk (pre ++ (Frame.enc (.simple s) ++ post)) pre.length a).cur = .ok 43 := cur_at pre 43 _ a
    rw [← hd] at hl
    simp only [Frame.head, e4]
    rw [leaf_finish (o := pre.length + (Frame.enc (.simple s)).length) (m' := ⟨pre ++ (Frame.enc (.simple s) ++ post), pre.length, a⟩) hc]
    · rfl
    · simp only [parseSimple, hl]
      congr 2; simp [Frame.enc, crlf]; omega
  | error s =>
    have hd : pre ++ (Frame.enc (.error s) ++ post) = (pre ++ [45]) ++ (s ++ (crlf ++ post)) := by simp [Frame.enc]
    have hl := readLine (pre ++ [45]) s post hf (pre.length + 1) (by simp)
    have hc : (Msg.mk (pre ++ (Frame.enc (.error s) ++ post)) pre.length a).cur = .ok 45 := cur_at pre 45 _ a
    rw [← hd] at hl
    simp only [Frame.head, e5]
    rw [leaf_finish (o := pre.length + (Frame.enc (.error s)).length)
      (m' := ⟨pre ++ (Frame.enc (.error s) ++ post), pre.length, effect a (.error s)⟩) hc]
    · rfl
    · have ho : (((pre ++ [45]).length + s.length + 2 : Nat) : Int) = ((pre.length + (Frame.enc (.error s)).length : Nat) : Int) := by
        simp [Frame.enc, crlf]; omega
      simp only [parseError, hl, Msg.has, effect]
      by_cases h1 : s = []
      · rw [ho]; simp [h1]
      · have h1' : 0 < s.length := by cases s <;> simp at h1 ⊢
        by_cases h2 : (AMap.get a kErrMsg).isSome
        · rw [ho]; simp [h2]
        · rw [ho]; simp [h1, h2, h1', Msg.add]
  | bulk b =>
    obtain ⟨hf1, hf2⟩ := hf
    have hd : pre ++ (Frame.enc (.bulk b) ++ post) = (pre ++ [36]) ++ (Dec.formatInt b.length ++ (crlf ++ (b ++ (crlf ++ post)))) := by simp [Frame.enc]
    have hd2 : pre ++ (Frame.enc (.bulk b) ++ post) = (pre ++ [36] ++ Dec.formatInt b.length ++ crlf) ++ (b ++ (crlf ++ post)) := by simp [Frame.enc]
    have hl := readLine (pre ++ [36]) (Dec.formatInt b.length) (b ++ (crlf ++ post)) (digits_no_cr _) (pre.length + 1) (by simp)
    have hl2 := readLine (pre ++ [36] ++ Dec.formatInt b.length ++ crlf) b post hf2
      ((pre ++ [36]).length + (Dec.formatInt b.length).length + 2) (by simp [crlf]; omega)
    have hc : (Msg.mk (pre ++ (Frame.enc (.bulk b) ++ post)) pre.length a).cur = .ok 36 := cur_at pre 36 _ a
    rw [← hd] at hl
    rw [← hd2] at hl2
    simp only [Frame.head, e2]
    rw [leaf_finish (o := pre.length + (Frame.enc (.bulk b)).length)
      (m' := ⟨pre ++ (Frame.enc (.bulk b) ++ post), pre.length, effect a (.bulk b)⟩) hc]
    · rfl
    · have ho : (((pre ++ [36] ++ Dec.formatInt b.length ++ crlf).length + b.length + 2 : Nat) : Int) =
          ((pre.length + (Frame.enc (.bulk b)).length : Nat) : Int) := by
        simp [Frame.enc, crlf]; omega
      have hne : ((b.length : Int)) ≠ -1 := by omega
      simp only [parseBulk, hl, parse_format _ hf1, ↓reduceIte, hne, Int.toNat_natCast, hl2, ne_eq, not_true_eq_false, ho]
      simp only [Msg.has, effect]
      by_cases hcm : isCommand b = true
      · have hn := ha b hcm; simp [hn, hcm, Msg.add]
      · simp [hcm]

theorem head_client {f : Frame} (h : f.Client) : f.head = 42 ∨ f.head = 36 ∨ f.head = 58 := by
  cases f <;> simp [Frame.head, Frame.Client] at *

theorem head_all (f : Frame) : f.head = 42 ∨ f.head = 36 ∨ f.head = 58 ∨ f.head = 43 ∨ f.head = 45 := by
  cases f <;> simp [Frame.head]

theorem enc_head (f : Frame) : ∃ r, f.enc = f.head :: r := by
  cases f <;> exact ⟨_, rfl⟩

theorem cur_frame (f : Frame) (pre post : Bytes) (a : Attrs) : (Msg.mk (pre ++ (f.enc ++ post)) pre.length a).cur = .ok f.head := by
  obtain ⟨r, hr⟩ := enc_head f
  rw [hr]; exact cur_at pre f.head (r ++ post) a

theorem after_ne_fail (d : Bytes) (o : Nat) : (if d.length ≤ o then Status.complete else .ok) ≠ .fail := by split <;> simp

theorem request_frame (f : Frame) (hf : f.Clean) (hk : f.Client) (pre post : Bytes) (a : Attrs) (ha : NoCommandKey a) :
    requestTree.run ⟨pre ++ (f.enc ++ post), pre.length, a⟩ = after (pre ++ (f.enc ++ post)) (pre.length + f.enc.length) (effect a f) :=
  request_dispatch (cur_frame f pre post a) (head_client hk) (leaf_frame f hf pre post a ha) (fun h => absurd h (after_ne_fail _ _))

theorem response_frame (f : Frame) (hf : f.Clean) (pre post : Bytes) (a : Attrs) (ha : NoCommandKey a) :
    responseTree.run ⟨pre ++ (f.enc ++ post), pre.length, a⟩ = after (pre ++ (f.enc ++ post)) (pre.length + f.enc.length) (effect a f) :=
  response_dispatch (cur_frame f pre post a) (head_all f) (leaf_frame f hf pre post a ha) (fun h => absurd h (after_ne_fail _ _))

/-! ## Lists of frames -/

/-- Frames followed by something: the loop arrives behind them. -/
theorem frames_then (t : Tree) (P : Frame → Prop)
    (ht : ∀ f, f.Clean → P f → ∀ (pre post : Bytes) (a : Attrs), NoCommandKey a →
      t.run ⟨pre ++ (f.enc ++ post), pre.length, a⟩ = after (pre ++ (f.enc ++ post)) (pre.length + f.enc.length) (effect a f))
    (fs : List Frame) : ∀ (pre post : Bytes) (a : Attrs) (n : Nat), NoCommandKey a → (∀ f ∈ fs, f.Clean ∧ P f) → post ≠ [] →
      t.frames (n + fs.length) ⟨pre ++ (encode fs ++ post), pre.length, a⟩ =
      t.frames n ⟨pre ++ (encode fs ++ post), (pre ++ encode fs).length, fs.foldl effect a⟩ := by
  induction fs with
  | nil => intro pre post a n ha _ _; simp [encode]
  | cons f r ih =>
    intro pre post a n ha hfs hpost
    obtain ⟨hc, hp⟩ := hfs f (by simp)
    have e : pre ++ (encode (f :: r) ++ post) = pre ++ (f.enc ++ (encode r ++ post)) := by simp [encode]
    have e2 : pre ++ (f.enc ++ (encode r ++ post)) = (pre ++ f.enc) ++ (encode r ++ post) := by simp
    have := ht f hc hp pre (encode r ++ post) a ha
    have hpos : 0 < post.length := by cases post <;> simp at hpost ⊢
    rw [e, show n + (f :: r).length = (n + r.length) + 1 by simp; omega, Tree.frames, this, after, if_neg (by simp; omega)]
    simp only
    rw [e2, show pre.length + f.enc.length = (pre ++ f.enc).length by simp,
      ih (pre ++ f.enc) post (effect a f) n (effect_noCommandKey ha f) (fun g hg => hfs g (by simp [hg])) hpost]
    congr 2
    simp [encode]

theorem frames_all (t : Tree) (P : Frame → Prop)
    (ht : ∀ f, f.Clean → P f → ∀ (pre post : Bytes) (a : Attrs), NoCommandKey a →
      t.run ⟨pre ++ (f.enc ++ post), pre.length, a⟩ = after (pre ++ (f.enc ++ post)) (pre.length + f.enc.length) (effect a f))
    (fs : List Frame) (hne : fs ≠ []) (a : Attrs) (n : Nat) (ha : NoCommandKey a) (hfs : ∀ f ∈ fs, f.Clean ∧ P f) (hn : fs.length ≤ n) :
    t.frames n ⟨encode fs, 0, a⟩ = some (.ok (true, ⟨encode fs, (encode fs).length, fs.foldl effect a⟩)) := by
  obtain ⟨r, f, rfl⟩ : ∃ r f, fs = r ++ [f] := ⟨fs.dropLast, fs.getLast hne, (List.dropLast_concat_getLast hne).symm⟩
  obtain ⟨c, hc⟩ := enc_head f
  have e : encode (r ++ [f]) = encode r ++ f.enc := by simp [encode]
  obtain ⟨hcl, hp⟩ := hfs f (by simp)
  have hr := frames_then t P ht r [] f.enc a (n - r.length) ha (fun g hg => hfs g (by simp [hg])) (by simp [hc])
  simp only [List.nil_append, List.length_nil] at hr
  rw [show n - r.length + r.length = n by simp at hn; omega] at hr
  have hnoc : NoCommandKey (r.foldl effect a) := by
    clear hr hfs hn hne e
    induction r generalizing a with
    | nil => exact ha
    | cons g r ih => exact ih _ (effect_noCommandKey ha g)
  have h1 := ht f hcl hp (encode r) [] (r.foldl effect a) hnoc
  rw [List.append_nil] at h1
  rw [e, hr]
  obtain ⟨k, hk⟩ : ∃ k, n - r.length = k + 1 := ⟨n - r.length - 1, by simp at hn; omega⟩
  rw [hk, Tree.frames, h1, after, if_pos (by simp)]
  simp

theorem encode_length (fs : List Frame) : fs.length ≤ (encode fs).length := by
  induction fs with
  | nil => simp
  | cons f r ih =>
    obtain ⟨c, hc⟩ := enc_head f
    simp only [encode, List.map_cons, List.flatten_cons, List.length_append, hc, List.length_cons] at *
    omega

/-! ## Attributes -/

theorem upper_ascii (b : UInt8) (h : upper b < 0x80) : b < 0x80 := by
  revert h; revert b; apply Dns.forall_uint8; decide +kernel

theorem commands_ascii : ∀ c ∈ commands, ∀ b ∈ c, b < 0x80 := by decide +kernel

theorem ascii_kept (s : Bytes) (h : ∀ b ∈ s, b < 0x80) : Text.formatUtf8 s = s := by
  have e : s = Text.text (s.map (·.toNat)) := by
    induction s with
    | nil => rfl
    | cons b r ih =>
      have hb : b.toNat < 0x80 := by simpa [UInt8.lt_iff_toNat_lt] using h b (by simp)
      have := ih (fun c hc => h c (by simp [hc]))
      simp only [Text.text, List.map_cons, List.flatten_cons, Text.utf8, if_pos hb, UInt8.ofNat_toNat, List.singleton_append] at *
      congr 1
  rw [e]
  apply Text.utf8_valid_kept_partial
  · intro c hc
    obtain ⟨b, hb, rfl⟩ := List.mem_map.1 hc
    have := h b hb
    simp [UInt8.lt_iff_toNat_lt] at this
    exact .inl (by omega)
  · clear e
    induction s with
    | nil => trivial
    | cons b r ih =>
      have hb : b.toNat < 0x80 := by simpa [UInt8.lt_iff_toNat_lt] using h b (by simp)
      have := ih (fun c hc => h c (by simp [hc]))
      cases r with
      | nil => trivial
      | cons c r => exact ⟨fun hh => by have h1 : 0x80 ≤ b.toNat := hh.1.1; omega, this⟩

theorem command_ascii {b : Bytes} (h : isCommand b = true) : ∀ x ∈ b, x < 0x80 := by
  unfold isCommand at h
  split at h
  · simp at h
  · intro x hx
    have hm : b.map upper ∈ commands := by simpa using h
    exact upper_ascii x (commands_ascii _ hm _ (List.mem_map_of_mem hx))

theorem command_kept {b : Bytes} (h : isCommand b = true) : Text.formatUtf8 b = b := ascii_kept b (command_ascii h)

theorem keys_distinct : kContentKey ≠ kCommand ∧ kContentKey ≠ kErrMsg ∧ kContentKey ≠ kIsError ∧ kContentKey ≠ kErrorType ∧ kCommand ≠ kErrMsg ∧
    kCommand ≠ kIsError ∧ kCommand ≠ kErrorType ∧ kErrMsg ≠ kIsError ∧ kErrMsg ≠ kErrorType ∧ kIsError ≠ kErrorType := by
  decide +kernel

theorem effect_command (a : Attrs) (f : Frame) : AMap.get (effect a f) kCommand =
    ((lastCommand [f]).map .str).or (AMap.get a kCommand) := by
  obtain ⟨h1, h2, h3, h4, h5, h6, h7, h8, h9, h10⟩ := keys_distinct
  cases f with
  | bulk b =>
    simp only [effect, lastCommand]
    by_cases hb : isCommand b = true
    · simp [hb, command_kept hb]
    · simp [hb]
  | error s =>
    simp only [effect, lastCommand]
    split
    · rfl
    · rw [AMap.get_set_ne _ _ (Ne.symm h7), AMap.get_set_ne _ _ (Ne.symm h6), AMap.get_set_ne _ _ (Ne.symm h5)]; rfl
  | _ => rfl

theorem effect_content (a : Attrs) (f : Frame) : AMap.get (effect a f) kContentKey =
    ((lastCommand [f]).map .str).or (AMap.get a kContentKey) := by
  obtain ⟨h1, h2, h3, h4, h5, h6, h7, h8, h9, h10⟩ := keys_distinct
  cases f with
  | bulk b =>
    simp only [effect, lastCommand]
    by_cases hb : isCommand b = true
    · simp [hb, command_kept hb, AMap.get_set_ne _ _ (Ne.symm h1)]
    · simp [hb]
  | error s =>
    simp only [effect, lastCommand]
    split
    · rfl
    · rw [AMap.get_set_ne _ _ (Ne.symm h4), AMap.get_set_ne _ _ (Ne.symm h3), AMap.get_set_ne _ _ (Ne.symm h2)]; rfl
  | _ => rfl

theorem lastCommand_cons (f : Frame) (r : List Frame) : lastCommand (f :: r) =
    match lastCommand r with | some c => some c | none => lastCommand [f] := rfl

theorem fold_command (k : Bytes) (hk : ∀ a f, AMap.get (effect a f) k = ((lastCommand [f]).map .str).or (AMap.get a k))
    (fs : List Frame) : ∀ a, AMap.get (fs.foldl effect a) k =
    ((lastCommand fs).map .str).or (AMap.get a k) := by
  induction fs with
  | nil => intro a; rfl
  | cons f r ih =>
    intro a
    rw [List.foldl_cons, ih, lastCommand_cons, hk]
    cases lastCommand r <;> rfl

/-- How the error attributes stand. -/
structure ErrorIs (a : Attrs) (e : Option Bytes) : Prop where
  msg : AMap.get a kErrMsg = e.map (fun s => .str (Text.formatUtf8 s))
  flag : AMap.get a kIsError = e.map (fun _ => .bool true)
  type : AMap.get a kErrorType = e.map (fun _ => .int 3)

theorem effect_error (a : Attrs) (f : Frame) (e : Option Bytes) (h : ErrorIs a e) :
    ErrorIs (effect a f) (e.or (firstError [f])) := by
  obtain ⟨h1, h2, h3, h4, h5, h6, h7, h8, h9, h10⟩ := keys_distinct
  obtain ⟨m1, m2, m3⟩ := h
  cases f with
  | error s =>
    simp only [effect, firstError]
    by_cases hs : s = []
    · cases e <;> simp [hs] <;> exact ⟨m1, m2, m3⟩
    · cases e with
      | some x => simp [hs, m1]; exact ⟨m1, m2, m3⟩
      | none =>
        simp only [hs, m1, false_or, Option.map_none, Option.isSome_none, Bool.false_eq_true, ↓reduceIte]
        refine ⟨?_, ?_, ?_⟩
        · rw [AMap.get_set_ne _ _ (Ne.symm h9), AMap.get_set_ne _ _ (Ne.symm h8)]; simp
        · rw [AMap.get_set_ne _ _ (Ne.symm h10)]; simp
        · simp
  | bulk b =>
    have : e.or (firstError [Frame.bulk b]) = e := by cases e <;> rfl
    rw [this]
    simp only [effect]
    split
    · refine ⟨?_, ?_, ?_⟩
      · rw [AMap.get_set_ne _ _ h5, AMap.get_set_ne _ _ h2]; exact m1
      · rw [AMap.get_set_ne _ _ h6, AMap.get_set_ne _ _ h3]; exact m2
      · rw [AMap.get_set_ne _ _ h7, AMap.get_set_ne _ _ h4]; exact m3
    · exact ⟨m1, m2, m3⟩
  | _ => cases e <;> exact ⟨m1, m2, m3⟩

theorem fold_error (fs : List Frame) : ∀ a e, ErrorIs a e → ErrorIs (fs.foldl effect a) (e.or (firstError fs)) := by
  induction fs with
  | nil => intro a e h; cases e <;> exact h
  | cons f r ih =>
    intro a e h
    have := ih _ _ (effect_error a f e h)
    rw [List.foldl_cons]
    have e2 : (e.or (firstError [f])).or (firstError r) = e.or (firstError (f :: r)) := by
      cases e with
      | some s => rfl
      | none =>
        cases f with
        | error s => by_cases hs : s = [] <;> simp [firstError, hs]
        | _ => simp [firstError]
    rw [e2] at this
    exact this

theorem fold_oneway (fs : List Frame) : ∀ a, AMap.get (fs.foldl effect a) (bs "one_way") = AMap.get a (bs "one_way") := by
  have h : ∀ k ∈ [kContentKey, kCommand, kErrMsg, kIsError, kErrorType], k ≠ bs "one_way" := by decide +kernel
  have h1 := h kContentKey (by simp)
  have h2 := h kCommand (by simp)
  have h3 := h kErrMsg (by simp)
  have h4 := h kIsError (by simp)
  have h5 := h kErrorType (by simp)
  induction fs with
  | nil => exact fun a => rfl
  | cons f r ih =>
    intro a
    rw [List.foldl_cons, ih]
    cases f <;> simp only [effect]
    · split
      · rw [AMap.get_set_ne _ _ h2, AMap.get_set_ne _ _ h1]
      · rfl
    · split
      · rfl
      · rw [AMap.get_set_ne _ _ h5, AMap.get_set_ne _ _ h4, AMap.get_set_ne _ _ h3]

/-! ## C20 -/

/-- C20: every non-empty list of client frames without carriage returns in their texts is parsed completely; the
command reported (also as content key) is the last of the strings that names a command. -/
theorem redis_request_parsed_partial (fs : List Frame) (hne : fs ≠ []) (hc : ∀ f ∈ fs, f.Clean) (hk : ∀ f ∈ fs, f.Client) :
    ∃ m, parseRequest (encode fs) = some (.ok (true, m)) ∧ m.offset = (encode fs).length ∧
      AMap.get m.attrs (bs "redis_command") = (lastCommand fs).map .str ∧ AMap.get m.attrs (bs "content_key") = (lastCommand fs).map .str ∧
      AMap.get m.attrs (bs "is_error") = none ∧ AMap.get m.attrs (bs "one_way") = none := by
  rw [show bs "redis_command" = kCommand from rfl, show bs "content_key" = kContentKey from rfl, show bs "is_error" = kIsError from rfl]
  have hl := encode_length fs
  refine ⟨_, frames_all requestTree Frame.Client request_frame fs hne [] ((encode fs).length + 1) (by intro k _; rfl)
    (fun f hf => ⟨hc f hf, hk f hf⟩) (by omega), rfl, ?_, ?_, ?_, fold_oneway fs []⟩
  · show AMap.get (fs.foldl effect []) kCommand = _
    rw [fold_command kCommand effect_command fs []]
    cases lastCommand fs <;> rfl
  · show AMap.get (fs.foldl effect []) kContentKey = _
    rw [fold_command kContentKey effect_content fs []]
    cases lastCommand fs <;> rfl
  · have hf : ∀ (l : List Frame), (∀ f ∈ l, f.Client) → firstError l = none := by
      intro l
      induction l with
      | nil => intro _; rfl
      | cons f r ih =>
        intro h
        have h1 := h f (by simp)
        have h2 := ih (fun g hg => h g (by simp [hg]))
        cases f <;> simp [Frame.Client] at h1 <;> exact h2
    have := (fold_error fs [] none ⟨rfl, rfl, rfl⟩).flag
    rw [hf fs hk] at this
    exact this

/-- C20 for responses: parsed completely; an error iff some error frame carries a text, the first one being
reported.  But a string of the response that names a command replaces the command of the request. -/
theorem redis_response_parsed_partial (fs : List Frame) (a : Attrs) (hne : fs ≠ []) (hc : ∀ f ∈ fs, f.Clean) (ha : NoCommandKey a)
    (hn : AMap.get a kErrMsg = none ∧ AMap.get a kIsError = none ∧ AMap.get a kErrorType = none) :
    ∃ m, parseResponse (encode fs) a = some (.ok (true, m)) ∧ m.offset = (encode fs).length ∧
      AMap.get m.attrs (bs "redis_error_msg") = (firstError fs).map (fun s => .str (Text.formatUtf8 s)) ∧
      AMap.get m.attrs (bs "is_error") = (firstError fs).map (fun _ => .bool true) ∧
      AMap.get m.attrs (bs "error_type") = (firstError fs).map (fun _ => .int 3) ∧
      AMap.get m.attrs (bs "redis_command") = ((lastCommand fs).map .str).or (AMap.get a (bs "redis_command")) := by
  rw [show bs "redis_command" = kCommand from rfl, show bs "redis_error_msg" = kErrMsg from rfl, show bs "is_error" = kIsError from rfl,
    show bs "error_type" = kErrorType from rfl]
  have hl := encode_length fs
  have he := fold_error fs a none ⟨hn.1, hn.2.1, hn.2.2⟩
  exact ⟨_, frames_all responseTree (fun _ => True) (fun f h1 _ => response_frame f h1) fs hne a ((encode fs).length + 1) ha
    (fun f hf => ⟨hc f hf, trivial⟩) (by omega), rfl, he.msg, he.flag, he.type, fold_command kCommand effect_command fs a⟩

/-- The parser of bulk strings fails on `$` at the end of `pre`. -/
theorem bulk_fails_request {d pre : Bytes} {a : Attrs} (hc : (Msg.mk d pre.length a).cur = .ok 36)
    (hp : parseBulk ⟨d, pre.length, a⟩ = failed ⟨d, pre.length, a⟩) : requestTree.run ⟨d, pre.length, a⟩ = .ok (.fail, ⟨d, pre.length, a⟩) :=
  request_dispatch hc (.inr (.inl rfl)) (leaf_failed hc hp) (fun _ => rfl)

theorem parseBulk_cr (b : Bytes) (hb : (13 : UInt8) ∈ b) (h64 : Int64 b.length) (pre post : Bytes) (a : Attrs) :
    parseBulk ⟨pre ++ (Frame.enc (.bulk b) ++ post), pre.length, a⟩ = failed ⟨pre ++ (Frame.enc (.bulk b) ++ post), pre.length, a⟩ := by
  have hd : pre ++ (Frame.enc (.bulk b) ++ post) = (pre ++ [36]) ++ (Dec.formatInt b.length ++ (crlf ++ (b ++ (crlf ++ post)))) := by simp [Frame.enc]
  have hd2 : pre ++ (Frame.enc (.bulk b) ++ post) = (pre ++ [36] ++ Dec.formatInt b.length ++ crlf) ++ (b ++ (crlf ++ post)) := by simp [Frame.enc]
  have hl := readLine (pre ++ [36]) (Dec.formatInt b.length) (b ++ (crlf ++ post)) (digits_no_cr _) (pre.length + 1) (by simp)
  have hl2 := readLine_cr (pre ++ [36] ++ Dec.formatInt b.length ++ crlf) b post hb
    ((pre ++ [36]).length + (Dec.formatInt b.length).length + 2) (by simp [crlf]; omega)
  rw [← hd] at hl
  rw [← hd2] at hl2
  have hne : ((b.length : Int)) ≠ -1 := by omega
  rcases hl2 with hl2 | ⟨o, v, hl2, hv⟩
  · simp only [parseBulk, hl, parse_format _ h64, ↓reduceIte, hne, Int.toNat_natCast, hl2]
  · simp only [parseBulk, hl, parse_format _ h64, ↓reduceIte, hne, Int.toNat_natCast, hl2]
    rw [if_pos (by omega)]

theorem fold_noCommandKey (fs : List Frame) : ∀ a, NoCommandKey a → NoCommandKey (fs.foldl effect a) := by
  induction fs with
  | nil => exact fun a h => h
  | cons g r ih => exact fun a h => ih _ (effect_noCommandKey h g)

/-- C20 fails of the code: RESP strings are binary safe, but a request with a carriage return in any of its strings is not recognised. -/
theorem string_with_cr_not_recognised (fs : List Frame) (hc : ∀ f ∈ fs, f.Clean) (hk : ∀ f ∈ fs, f.Client)
    (b : Bytes) (hb : (13 : UInt8) ∈ b) (h64 : Int64 b.length) (post : Bytes) :
    ∃ m, parseRequest (encode fs ++ (Frame.enc (.bulk b) ++ post)) = some (.ok (false, m)) := by
  obtain ⟨r, hr⟩ := enc_head (.bulk b)
  have hl := encode_length fs
  have hn : Frame.enc (.bulk b) ++ post ≠ [] := by simp [hr]
  have h1 := frames_then requestTree Frame.Client request_frame fs [] (Frame.enc (.bulk b) ++ post) []
    ((encode fs ++ (Frame.enc (.bulk b) ++ post)).length + 1 - fs.length) (by intro k _; rfl) (fun f hf => ⟨hc f hf, hk f hf⟩) hn
  simp only [List.nil_append, List.length_nil] at h1
  have hlen : (encode fs).length ≤ (encode fs ++ (Frame.enc (.bulk b) ++ post)).length := by simp
  rw [show (encode fs ++ (Frame.enc (.bulk b) ++ post)).length + 1 - fs.length + fs.length = (encode fs ++ (Frame.enc (.bulk b) ++ post)).length + 1 by omega] at h1
  rw [parseRequest, h1, show (encode fs ++ (Frame.enc (.bulk b) ++ post)).length + 1 - fs.length =
    ((encode fs ++ (Frame.enc (.bulk b) ++ post)).length - fs.length) + 1 by omega, Tree.frames,
    bulk_fails_request (cur_frame (.bulk b) (encode fs) post _) (parseBulk_cr b hb h64 (encode fs) post _)]
  exact ⟨_, rfl⟩

/-! ### Truncated payloads -/

theorem readRest (pre s : Bytes) (h : (13 : UInt8) ∉ s) (start : Nat) (hs : start = pre.length) (hne : s ≠ []) :
    readUntilCRLF (pre ++ s) start = .ok (((pre ++ s).length : Nat), s) := by
  subst hs
  have hpos : 0 < s.length := by cases s <;> simp at hne ⊢
  have hf : findCR ((pre ++ s).drop pre.length) = none := by rw [List.drop_left, findCR_none h]
  have hsl := slice_nat pre s []
  rw [List.append_nil, ← List.length_append] at hsl
  have hlen : pre.length < (pre ++ s).length := by simp; omega
  generalize pre ++ s = d at *
  simp only [readUntilCRLF]
  rw [if_neg (by omega), hf]
  simp only
  rw [hsl]
  simp

/-- Text ending in CR at the end of the payload. -/
theorem readRest_cr (pre s : Bytes) (h : (13 : UInt8) ∉ s) (start : Nat) (hs : start = pre.length) :
    readUntilCRLF (pre ++ (s ++ [13])) start = .ok (((pre ++ (s ++ [13])).length : Nat), s) := by
  subst hs
  have hf : findCR ((pre ++ (s ++ [13])).drop pre.length) = some s.length := by rw [List.drop_left, findCR_append h]
  have hsl := slice_nat pre s [13]
  rw [List.append_assoc] at hsl
  have hlen : (pre ++ (s ++ [13])).length = pre.length + s.length + 1 := by simp; omega
  generalize pre ++ (s ++ [13]) = d at *
  simp only [readUntilCRLF]
  rw [if_neg (by omega), hf]
  simp only
  rw [if_pos (by omega), show d.length - 1 = pre.length + s.length by omega, hsl]
  simp

theorem readEnd (d : Bytes) (start : Nat) (h : d.length ≤ start) : readUntilCRLF d start = .err := by
  simp [readUntilCRLF, h]

/-- Digits are never read as -1. -/
theorem parseInt_digits_nonneg (s : Bytes) (h : ∀ b ∈ s, 48 ≤ b.toNat ∧ b.toNat ≤ 57) : (Dec.parseInt 64 s).1 ≠ -1 := by
  cases s with
  | nil => decide
  | cons b r =>
    have hb := h b (by simp)
    have h1 : b ≠ 45 := by rintro rfl; simp at hb
    have h2 : b ≠ 43 := by rintro rfl; simp at hb
    simp only [Dec.parseInt, h1, h2, ↓reduceIte]
    split
    · split <;> simp
    · simp only [Bool.false_eq_true, ↓reduceIte]; split <;> simp

/-- A line that ends the payload leaves no string behind it. -/
theorem parseBulk_at_end (d : Bytes) (off : Nat) (a : Attrs) (s : Bytes) (hs : ∀ b ∈ s, 48 ≤ b.toNat ∧ b.toNat ≤ 57)
    (h : readUntilCRLF d (off + 1) = .ok ((d.length : Nat), s)) : parseBulk ⟨d, off, a⟩ = failed ⟨d, off, a⟩ := by
  have hne := parseInt_digits_nonneg s hs
  simp only [parseBulk, h, hne, ↓reduceIte, Int.toNat_natCast, readEnd d d.length (Nat.le_refl _)]
  split <;> rfl

theorem formatInt_nat (n : Nat) : Dec.formatInt n = Dec.digits n := by
  simp only [Dec.formatInt]
  rw [if_neg (by omega)]; simp

theorem take_digits (n k : Nat) : ∀ b ∈ (Dec.digits n).take k, 48 ≤ b.toNat ∧ b.toNat ≤ 57 :=
  fun b hb => Dec.digits_all n b (List.mem_of_mem_take hb)

theorem parseBulk_cut (b : Bytes) (h64 : Int64 b.length) (pre : Bytes) (a : Attrs) (k : Nat)
    (hk : k < (Dec.formatInt b.length ++ crlf ++ b).length) :
    parseBulk ⟨pre ++ 36 :: (Dec.formatInt b.length ++ crlf ++ b).take k, pre.length, a⟩ =
      failed ⟨pre ++ 36 :: (Dec.formatInt b.length ++ crlf ++ b).take k, pre.length, a⟩ := by
  have hcr := digits_no_cr b.length
  have hne := parseInt_digits_nonneg _ (Dec.digits_all b.length)
  rw [formatInt_nat] at hk hcr ⊢
  have hnd : ∀ j, (13 : UInt8) ∉ (Dec.digits b.length).take j := fun j hm => hcr (List.mem_of_mem_take hm)
  have hlen : (Dec.digits b.length ++ crlf ++ b).length = (Dec.digits b.length).length + 2 + b.length := by simp [crlf]; omega
  by_cases h0 : k ≤ (Dec.digits b.length).length
  · have e : (Dec.digits b.length ++ crlf ++ b).take k = (Dec.digits b.length).take k := by
      rw [List.append_assoc, List.take_append_of_le_length h0]
    rw [e]
    by_cases hz : k = 0
    · subst hz
      simp only [List.take_zero, parseBulk, readEnd (pre ++ [36]) (pre.length + 1) (by simp)]
    · have hne' : (Dec.digits b.length).take k ≠ [] := by
        intro hc
        have := congrArg List.length hc
        have hd : 0 < (Dec.digits b.length).length := by
          cases hx : Dec.digits b.length with
          | nil => exact absurd hx (Dec.digits_ne_nil _)
          | cons => simp
        rw [List.length_take, List.length_nil] at this; omega
      have := readRest (pre ++ [36]) _ (hnd k) (pre.length + 1) (by simp) hne'
      rw [List.append_assoc] at this
      exact parseBulk_at_end _ _ _ _ (take_digits _ _) this
  · by_cases h1 : k = (Dec.digits b.length).length + 1
    · have e : (Dec.digits b.length ++ crlf ++ b).take k = Dec.digits b.length ++ [13] := by
        rw [List.append_assoc, h1, List.take_append, List.take_of_length_le (by omega)]
        simp [crlf]
      rw [e]
      have := readRest_cr (pre ++ [36]) _ hcr (pre.length + 1) (by simp)
      rw [List.append_assoc] at this
      exact parseBulk_at_end _ _ _ _ (Dec.digits_all _) this
    · obtain ⟨j, hj⟩ : ∃ j, k = (Dec.digits b.length).length + 2 + j := ⟨k - ((Dec.digits b.length).length + 2), by omega⟩
      have hj' : j < b.length := by omega
      have e : (Dec.digits b.length ++ crlf ++ b).take k = Dec.digits b.length ++ (crlf ++ b.take j) := by
        rw [hj, List.take_append, List.take_of_length_le (by simp [crlf])]
        simp [crlf]
      rw [e]
      have hl := readLine (pre ++ [36]) (Dec.digits b.length) (b.take j) hcr (pre.length + 1) (by simp)
      have hd2 : pre ++ 36 :: (Dec.digits b.length ++ (crlf ++ b.take j)) = (pre ++ [36] ++ Dec.digits b.length ++ crlf) ++ b.take j := by simp
      have hd1 : pre ++ 36 :: (Dec.digits b.length ++ (crlf ++ b.take j)) = (pre ++ [36]) ++ (Dec.digits b.length ++ (crlf ++ b.take j)) := by simp
      rw [← hd1] at hl
      have hp : Dec.parseInt 64 (Dec.digits b.length) = ((b.length : Int), true) := by rw [← formatInt_nat]; exact parse_format _ h64
      have hm1 : ((b.length : Int)) ≠ -1 := by omega
      -- the string read is shorter than announced, or none is read
      have h2 : readUntilCRLF (pre ++ 36 :: (Dec.digits b.length ++ (crlf ++ b.take j))) ((pre ++ [36]).length + (Dec.digits b.length).length + 2) = .err ∨
          ∃ o v, readUntilCRLF (pre ++ 36 :: (Dec.digits b.length ++ (crlf ++ b.take j))) ((pre ++ [36]).length + (Dec.digits b.length).length + 2) = .ok (o, v) ∧
            v.length < b.length := by
        have hs := readUntilCRLF_safe (pre ++ 36 :: (Dec.digits b.length ++ (crlf ++ b.take j))) ((pre ++ [36]).length + (Dec.digits b.length).length + 2)
        have hl : (pre ++ 36 :: (Dec.digits b.length ++ (crlf ++ b.take j))).length = (pre ++ [36]).length + (Dec.digits b.length).length + 2 + j := by
          simp [crlf]; omega
        cases hr : readUntilCRLF (pre ++ 36 :: (Dec.digits b.length ++ (crlf ++ b.take j))) ((pre ++ [36]).length + (Dec.digits b.length).length + 2) with
        | err => exact .inl rfl
        | panic => rw [hr] at hs; rcases hs with hs | ⟨v, o, hs, _⟩ <;> simp [flip] at hs
        | ok p =>
          rw [hr] at hs
          rcases hs with hs | ⟨v, o, hs, hin⟩
          · simp [flip] at hs
          · simp only [flip, Res.bind_ok, Res.pure_eq, Res.ok.injEq, Prod.mk.injEq] at hs
            obtain ⟨_, h4, x, h5, h6, _⟩ := hin
            refine .inr ⟨p.1, p.2, rfl, ?_⟩
            rw [hs.1]
            omega
      rcases h2 with h2 | ⟨o, v, h2, hv⟩
      · simp only [parseBulk, hl, hp, ↓reduceIte, hm1, Int.toNat_natCast, h2]
      · simp only [parseBulk, hl, hp, ↓reduceIte, hm1, Int.toNat_natCast, h2]
        rw [if_pos (by omega)]

/-- C20 fails of the code on truncated payloads: if the capture ends inside a bulk string (before the last byte of its
text), the request is not recognised as Redis, whatever came before. -/
theorem truncated_string_not_recognised (fs : List Frame) (hc : ∀ f ∈ fs, f.Clean) (hk : ∀ f ∈ fs, f.Client)
    (b : Bytes) (h64 : Int64 b.length) (k : Nat) (hk1 : k < (Dec.formatInt b.length ++ crlf ++ b).length) :
    ∃ m, parseRequest (encode fs ++ 36 :: (Dec.formatInt b.length ++ crlf ++ b).take k) = some (.ok (false, m)) := by
  have hl := encode_length fs
  generalize ht : 36 :: (Dec.formatInt b.length ++ crlf ++ b).take k = t
  have hn : t ≠ [] := by rw [← ht]; simp
  have h1 := frames_then requestTree Frame.Client request_frame fs [] t []
    ((encode fs ++ t).length + 1 - fs.length) (by intro k _; rfl) (fun f hf => ⟨hc f hf, hk f hf⟩) hn
  simp only [List.nil_append, List.length_nil] at h1
  have hlen : (encode fs).length ≤ (encode fs ++ t).length := by simp
  rw [show (encode fs ++ t).length + 1 - fs.length + fs.length = (encode fs ++ t).length + 1 by omega] at h1
  have hcur : (Msg.mk (encode fs ++ t) (encode fs).length (fs.foldl effect [])).cur = .ok 36 := by rw [← ht]; exact cur_at _ _ _ _
  have hp := parseBulk_cut b h64 (encode fs) (fs.foldl effect []) k hk1
  rw [ht] at hp
  rw [parseRequest, h1, show (encode fs ++ t).length + 1 - fs.length = ((encode fs ++ t).length - fs.length) + 1 by omega, Tree.frames,
    bulk_fails_request hcur hp]
  exact ⟨_, rfl⟩

/-! ### Every payload -/

/-- The outcome of a frame on any payload: failure with the message untouched, or progress inside the payload. -/
def Steps (m : Msg) (r : Res (Status × Msg)) : Prop :=
  r = .ok (.fail, m) ∨ ∃ s m', r = .ok (s, m') ∧ s ≠ .fail ∧ m'.data = m.data ∧ m.offset < m'.offset ∧ m'.offset ≤ m.data.length ∧
    (s = .ok → m'.offset < m.data.length)

def Steps' (m : Msg) (r : Res ((Bool × Bool) × Msg)) : Prop :=
  r = failed m ∨ ∃ o : Nat, ∃ m', r = finish m' o ∧ m'.data = m.data ∧ m.offset < o ∧ o ≤ m.data.length

theorem line_cases (d : Bytes) (start : Nat) : readUntilCRLF d start = .err ∨ ∃ o : Nat, ∃ s, readUntilCRLF d start = .ok ((o : Int), s) ∧ start ≤ o ∧ o ≤ d.length := by
  have hs := readUntilCRLF_safe d start
  cases hr : readUntilCRLF d start with
  | err => exact .inl rfl
  | panic => rw [hr] at hs; rcases hs with hs | ⟨v, o, hs, _⟩ <;> simp [flip] at hs
  | ok p =>
    rw [hr] at hs
    rcases hs with hs | ⟨v, o, hs, hin⟩
    · simp [flip] at hs
    · simp only [flip, Res.bind_ok, Res.pure_eq, Res.ok.injEq, Prod.mk.injEq] at hs
      obtain ⟨h3, h4, _⟩ := hin
      refine .inr ⟨o.toNat, p.2, ?_, by omega, by omega⟩
      rw [← hs.2] at h3 h4 ⊢
      congr 1
      exact Prod.ext (by simp only; omega) rfl

theorem number_steps (m : Msg) : Steps' m (parseNumber m) := by
  rcases line_cases m.data (m.offset + 1) with h | ⟨o, s, h, h1, h2⟩
  · exact .inl (by simp [parseNumber, h])
  · simp only [parseNumber, h]
    split
    · exact .inr ⟨o, m, rfl, rfl, by omega, h2⟩
    · exact .inl rfl

theorem simple_steps (m : Msg) : Steps' m (parseSimple m) := by
  rcases line_cases m.data (m.offset + 1) with h | ⟨o, s, h, h1, h2⟩
  · exact .inl (by simp [parseSimple, h])
  · simp only [parseSimple, h]
    exact .inr ⟨o, m, rfl, rfl, by omega, h2⟩

theorem error_steps (m : Msg) : Steps' m (parseError m) := by
  rcases line_cases m.data (m.offset + 1) with h | ⟨o, s, h, h1, h2⟩
  · exact .inl (by simp [parseError, h])
  · simp only [parseError, h]
    split
    · exact .inr ⟨o, _, rfl, rfl, by omega, h2⟩
    · exact .inr ⟨o, m, rfl, rfl, by omega, h2⟩

theorem bulk_steps (m : Msg) : Steps' m (parseBulk m) := by
  rcases line_cases m.data (m.offset + 1) with h | ⟨o, s, h, h1, h2⟩
  · exact .inl (by simp [parseBulk, h])
  · simp only [parseBulk, h, Int.toNat_natCast]
    split
    · split
      · exact .inr ⟨o, m, rfl, rfl, by omega, h2⟩
      · rcases line_cases m.data o with h' | ⟨o', v, h', h1', h2'⟩
        · exact .inl (by simp [h'])
        · simp only [h']
          split
          · exact .inl rfl
          · split
            · exact .inr ⟨o', _, rfl, rfl, by omega, h2'⟩
            · exact .inr ⟨o', m, rfl, rfl, by omega, h2'⟩
    · exact .inl rfl

theorem leaf_steps {c : UInt8} {p : ParseFn} {m : Msg} (hm : m.offset < m.data.length) (hp : Steps' m (p m)) : Steps m (Leaf.run ⟨startsNot c, p⟩ m) := by
  obtain ⟨b, hb, _⟩ := idx_ok (d := m.data) (i := (m.offset : Int)) (by omega) (by omega)
  have hb : m.cur = .ok b := hb
  by_cases hc : b = c
  · subst hc
    rcases hp with hp | ⟨o, m', hp, h1, h2, h3⟩
    · exact .inl (leaf_failed hb hp)
    · rw [leaf_finish hb hp]
      refine .inr ⟨_, _, rfl, after_ne_fail _ _, h1, h2, h3, ?_⟩
      split
      · simp
      · intro _; rw [h1] at *; simp only; omega
  · exact .inl (leaf_other hb hc)

theorem children_steps {m : Msg} (ls : List Leaf) (h : ∀ l ∈ ls, Steps m (l.run m)) : Steps m (runChildren ls m) := by
  induction ls with
  | nil => exact .inl rfl
  | cons l r ih =>
    rcases h l (by simp) with hl | ⟨s, m', hl, hs, hrest⟩
    · rw [children_skip hl]; exact ih (fun x hx => h x (by simp [hx]))
    · rw [children_take hl hs]; exact .inr ⟨s, m', rfl, hs, hrest⟩

theorem request_steps (m : Msg) (hm : m.offset < m.data.length) : Steps m (requestTree.run m) := by
  obtain ⟨b, hb, _⟩ := idx_ok (d := m.data) (i := (m.offset : Int)) (by omega) (by omega)
  rw [request_run hb]
  split
  · apply children_steps
    intro l hl
    simp only [requestTree, List.mem_cons, List.not_mem_nil, or_false] at hl
    rcases hl with rfl | rfl | rfl
    · exact leaf_steps hm (number_steps m)
    · exact leaf_steps hm (bulk_steps m)
    · exact leaf_steps hm (number_steps m)
  · exact .inl rfl

theorem response_steps (m : Msg) (hm : m.offset < m.data.length) : Steps m (responseTree.run m) := by
  obtain ⟨b, hb, _⟩ := idx_ok (d := m.data) (i := (m.offset : Int)) (by omega) (by omega)
  rw [response_run hb]
  split
  · apply children_steps
    intro l hl
    simp only [responseTree, List.mem_cons, List.not_mem_nil, or_false] at hl
    rcases hl with rfl | rfl | rfl | rfl | rfl
    · exact leaf_steps hm (number_steps m)
    · exact leaf_steps hm (bulk_steps m)
    · exact leaf_steps hm (number_steps m)
    · exact leaf_steps hm (simple_steps m)
    · exact leaf_steps hm (error_steps m)
  · exact .inl rfl

theorem frames_terminate (t : Tree) (ht : ∀ m : Msg, m.offset < m.data.length → Steps m (t.run m)) (n : Nat) : ∀ m : Msg,
    m.offset < m.data.length → m.data.length - m.offset ≤ n →
    ∃ b m', t.frames n m = some (.ok (b, m')) ∧ (b = true → m'.offset = m.data.length ∨ m'.offset ≤ m.data.length) := by
  induction n with
  | zero => intro m h1 h2; omega
  | succ n ih =>
    intro m h1 h2
    rcases ht m h1 with h | ⟨s, m', h, hs, hd, ho, hle, hok⟩
    · exact ⟨false, m, by simp [Tree.frames, h], by simp⟩
    · cases s with
      | fail => exact absurd rfl hs
      | complete => exact ⟨true, m', by simp [Tree.frames, h], fun _ => .inr hle⟩
      | ok =>
        have hlt := hok rfl
        obtain ⟨b, m'', h3, h4⟩ := ih m' (by rw [hd]; exact hlt) (by rw [hd]; omega)
        refine ⟨b, m'', ?_, by rw [hd] at h4; exact h4⟩
        simp only [Tree.frames, h, h3]

/-- C20, C21: on every non-empty payload the loops end, without panic, with success or failure. -/
theorem redis_terminates (d : Bytes) (a : Attrs) (h : d ≠ []) :
    (∃ b m, parseRequest d = some (.ok (b, m))) ∧ (∃ b m, parseResponse d a = some (.ok (b, m))) := by
  have hl : 0 < d.length := by cases d <;> simp at h ⊢
  obtain ⟨b, m, h1, _⟩ := frames_terminate requestTree request_steps (d.length + 1) ⟨d, 0, []⟩ hl (by simp)
  obtain ⟨b', m', h2, _⟩ := frames_terminate responseTree response_steps (d.length + 1) ⟨d, 0, a⟩ hl (by simp)
  exact ⟨⟨b, m, h1⟩, ⟨b', m', h2⟩⟩

/-- C21 fails of the parser alone: the empty payload panics (the analyzer drops events without data before). -/
theorem redis_empty_panics (a : Attrs) : parseRequest [] = some .panic ∧ parseResponse [] a = some .panic := ⟨rfl, rfl⟩

/-- C20: `CONFIG GET key` and the like are reported as `GET`: the two-word commands of the table never match, and
a later string that names a command wins. -/
theorem later_command_wins (args rest : List Bytes) (c : Bytes) (hc : isCommand c = true) (hr : ∀ b ∈ rest, isCommand b = false)
    (h1 : ∀ b ∈ args ++ c :: rest, (13 : UInt8) ∉ b ∧ Int64 b.length) (h64 : Int64 (args ++ c :: rest).length) :
    ∃ m, parseRequest (encode (request (args ++ c :: rest))) = some (.ok (true, m)) ∧ AMap.get m.attrs (bs "redis_command") = some (.str c) := by
  obtain ⟨m, hm, _, hcm, _⟩ := redis_request_parsed_partial (request (args ++ c :: rest)) (by simp [request])
    (by
      intro f hf
      simp only [request, List.mem_cons] at hf
      rcases hf with rfl | hf
      · exact h64
      · obtain ⟨b, hb, rfl⟩ := List.mem_map.1 hf
        exact ⟨(h1 b hb).2, (h1 b hb).1⟩)
    (by
      intro f hf
      simp only [request, List.mem_cons] at hf
      rcases hf with rfl | hf
      · trivial
      · obtain ⟨b, hb, rfl⟩ := List.mem_map.1 hf
        trivial)
  refine ⟨m, hm, ?_⟩
  have hlr : ∀ l : List Bytes, (∀ b ∈ l, isCommand b = false) → lastCommand (l.map .bulk) = none := by
    intro l
    induction l with
    | nil => intro _; rfl
    | cons b r ih =>
      intro h
      rw [List.map_cons, lastCommand_cons, ih (fun x hx => h x (by simp [hx]))]
      simp [lastCommand, h b (by simp)]
  have hl : ∀ l : List Bytes, lastCommand ((l ++ c :: rest).map .bulk) = some c := by
    intro l
    induction l with
    | nil => rw [List.nil_append, List.map_cons, lastCommand_cons, hlr rest hr]; simp [lastCommand, hc]
    | cons b r ih => rw [List.cons_append, List.map_cons, lastCommand_cons, ih]
  rw [hcm, request, lastCommand_cons, hl args]
  rfl

/-- The case of `CONFIG GET maxmemory`. -/
example : isCommand (bs "GET") = true ∧ isCommand (bs "CONFIG") = false ∧ isCommand (bs "maxmemory") = false := by
  unfold isCommand; decide +kernel

example : (∀ f ∈ request [bs "SET", bs "a", bs "b"], f.Clean) ∧ (∀ f ∈ request [bs "SET", bs "a", bs "b"], f.Client) := by
  have e : request [bs "SET", bs "a", bs "b"] = [.array 3, .bulk [83, 69, 84], .bulk [97], .bulk [98]] := by decide +kernel
  rw [e]
  constructor <;> intro f hf <;> simp only [List.mem_cons, List.not_mem_nil, or_false] at hf <;> rcases hf with rfl | rfl | rfl | rfl <;>
    simp [Frame.Clean, Frame.Client, Int64]

end Kindling.Proto.Redis
