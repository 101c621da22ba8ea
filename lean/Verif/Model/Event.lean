import Verif.Basic
/-
Kindling events and the splitting of a `sendmmsg` event into its messages.

`collector/pkg/model/event_converter.go`, `kindling_event_helper.go`, `kindling_event.go`.
-/
namespace Kindling.Model
abbrev Bytes := List UInt8

/-- `KindlingEvent` (kindling_event.go:250-265): name, the number of parameters in use, the array
of 16 named parameters, and the rest (source, timestamp, category, latency, context) as one
value of an arbitrary type.  A parameter is its key, its type and its bytes. -/
structure Event (T R : Type) where
  name : String
  paramsNumber : Nat
  attrs : List (String × T × Bytes)
  rest : R
deriving DecidableEq

variable {T R : Type}

/-- Index of the first parameter in use with this key (the loops at kindling_event_helper.go:109-116
and 124-132). -/
def indexOf (e : Event T R) (key : String) : Option Nat :=
  (e.attrs.take e.paramsNumber).findIdx? (fun a => a.1 == key)

/-- `GetUserAttribute` (kindling_event_helper.go:105-118). -/
def getAttr (e : Event T R) (key : String) : Option (String × T × Bytes) :=
  (e.attrs.take e.paramsNumber).find? (fun a => a.1 == key)

/-- `SetUserAttribute` (kindling_event_helper.go:120-133). -/
def setAttr (e : Event T R) (key : String) (value : Bytes) : Event T R :=
  match indexOf e key with
  | none => e
  | some i => { e with attrs := e.attrs.modify i (fun a => (a.1, a.2.1, value)) }

/-- `GetData` (kindling_event_helper.go:32-38). -/
def getData (e : Event T R) : Bytes := match getAttr e "data" with
  | some a => a.2.2
  | none => []

/-- `byteOrder.Uint32`/`PutUint64`: `getByteOrder` (kindling_event_helper.go:23-31) compares the low
byte of a number with itself, so it is always little-endian. -/
def leValue : Bytes → Nat
  | [] => 0
  | b :: r => b.toNat + 256 * leValue r

def leBytes : Nat → Nat → Bytes
  | 0, _ => []
  | k + 1, n => UInt8.ofNat (n % 256) :: leBytes k (n / 256)

/-- `GetResVal` (kindling_event_helper.go:48-54): -1 without the parameter, a panic (`none`) when it
has fewer than 8 bytes. -/
def getResVal (e : Event T R) : Option Int := match getAttr e "res" with
  | none => some (-1)
  | some a => if 8 ≤ a.2.2.length then
      let n := leValue (a.2.2.take 8)
      some (if n < 2 ^ 63 then (n : Int) else (n : Int) - 2 ^ 64)
    else none

/-- `splitDataBytes` (event_converter.go:28-53), the loop seen from `startIndex` on: what is left of
the data.  The loop goes on as long as something is left; each turn uses at least 4 bytes, so
`data.length` turns are enough.  Simplified: sizes are not bounded by the 64-bit `int` (they
come from 32 bits). -/
def splitGo : Nat → Bytes → List Bytes
  | 0, _ => []
  | fuel + 1, data =>
    if data.length ≤ 4 then []
    else
      let size := leValue (data.take 4)
      let rest := data.drop 4
      if size < rest.length then rest.take size :: splitGo fuel (rest.drop size)
      else [rest]

def splitDataBytes (data : Bytes) : List Bytes := splitGo data.length data

/-- `ConvertSendmmsg` (event_converter.go:7-26). -/
def convertSendmmsg (e : Event T R) : List (Event T R) :=
  if e.name = "sendmmsg" then
    (splitDataBytes (getData e)).map (fun m => setAttr (setAttr e "res" (leBytes 8 m.length)) "data" m)
  else []

/-! ### Specification: what the probe writes -/

/-- Messages, each preceded by its size in four bytes. -/
def encode : List Bytes → Bytes
  | [] => []
  | m :: r => leBytes 4 m.length ++ m ++ encode r

theorem leBytes_length (k n : Nat) : (leBytes k n).length = k := by
  induction k generalizing n with
  | zero => rfl
  | succ k ih => simp [leBytes, ih]

theorem leValue_leBytes (k n : Nat) (h : n < 256 ^ k) : leValue (leBytes k n) = n := by
  induction k generalizing n with
  | zero => simp at h; subst h; rfl
  | succ k ih =>
    have h1 : n / 256 < 256 ^ k := by
      rw [Nat.div_lt_iff_lt_mul (by decide)]; rw [Nat.pow_succ] at h; exact h
    have h2 : (UInt8.ofNat (n % 256)).toNat = n % 256 := by
      rw [UInt8.toNat_ofNat']; omega
    simp only [leBytes, leValue, ih _ h1, h2]
    omega

theorem splitGo_fuel (fuel fuel' : Nat) (data : Bytes) (h : data.length ≤ fuel) (h' : data.length ≤ fuel') :
    splitGo fuel data = splitGo fuel' data := by
  induction fuel generalizing fuel' data with
  | zero =>
    have : data = [] := List.length_eq_zero_iff.1 (by omega)
    subst this
    cases fuel' <;> simp [splitGo]
  | succ fuel ih =>
    cases fuel' with
    | zero =>
      have : data = [] := List.length_eq_zero_iff.1 (by omega)
      subst this; simp [splitGo]
    | succ fuel' =>
      simp only [splitGo]
      split
      · rfl
      · split
        · rw [ih fuel' _ (by simp; omega) (by simp; omega)]
        · rfl

theorem split_short {data : Bytes} (h : data.length ≤ 4) : splitDataBytes data = [] := by
  unfold splitDataBytes
  cases hl : data.length with
  | zero => rfl
  | succ n => rw [splitGo, if_pos h]

theorem split_more (n : Nat) (hn : n < 2 ^ 32) (m r : Bytes) (hm : m.length = n) (hr : r ≠ []) :
    splitDataBytes (leBytes 4 n ++ m ++ r) = m :: splitDataBytes r := by
  have hl4 := leBytes_length 4 n
  have hrl := List.length_pos_iff.2 hr
  unfold splitDataBytes
  have hlen : (leBytes 4 n ++ m ++ r).length = (3 + n + r.length) + 1 := by
    simp only [List.length_append, hl4, hm]; omega
  rw [hlen, splitGo, if_neg (by omega)]
  have e1 : (leBytes 4 n ++ m ++ r).take 4 = leBytes 4 n := by
    rw [List.append_assoc, List.take_append_of_le_length (by omega), List.take_of_length_le (by omega)]
  have e2 : (leBytes 4 n ++ m ++ r).drop 4 = m ++ r := by
    rw [List.append_assoc]
    have := List.drop_left (l₁ := leBytes 4 n) (l₂ := m ++ r)
    rw [hl4] at this; exact this
  simp only [e1, e2, leValue_leBytes 4 n (by omega)]
  rw [if_pos (by simp only [List.length_append]; omega)]
  have e3 : (m ++ r).take n = m := by rw [← hm]; exact List.take_left
  have e4 : (m ++ r).drop n = r := by rw [← hm]; exact List.drop_left
  rw [e3, e4]
  congr 1
  exact splitGo_fuel _ _ _ (by omega) (by omega)

theorem split_last (n : Nat) (hn : n < 2 ^ 32) (part : Bytes) (hp : part ≠ []) (hle : part.length ≤ n) :
    splitDataBytes (leBytes 4 n ++ part) = [part] := by
  have hl4 := leBytes_length 4 n
  have hpl := List.length_pos_iff.2 hp
  unfold splitDataBytes
  have hlen : (leBytes 4 n ++ part).length = (3 + part.length) + 1 := by
    simp only [List.length_append, hl4]; omega
  rw [hlen, splitGo, if_neg (by omega)]
  have e1 : (leBytes 4 n ++ part).take 4 = leBytes 4 n := by
    rw [List.take_append_of_le_length (by omega), List.take_of_length_le (by omega)]
  have e2 : (leBytes 4 n ++ part).drop 4 = part := by
    have := List.drop_left (l₁ := leBytes 4 n) (l₂ := part)
    rw [hl4] at this; exact this
  simp only [e1, e2, leValue_leBytes 4 n (by omega)]
  rw [if_neg (by omega)]

/-- Whatever follows complete messages is split on its own. -/
theorem split_encode_append (msgs : List Bytes) (hs : ∀ m ∈ msgs, m.length < 2 ^ 32) (r : Bytes) (hr : r ≠ []) :
    splitDataBytes (encode msgs ++ r) = msgs ++ splitDataBytes r := by
  induction msgs with
  | nil => rfl
  | cons m ms ih =>
    simp only [encode, List.append_assoc, List.cons_append]
    rw [← List.append_assoc, split_more m.length (hs m (by simp)) m _ rfl (by simp [hr]),
      ih (fun x hx => hs x (by simp [hx]))]

/-- The messages the probe captured of a call: complete ones, then possibly one of which the
announced size and only a part of the bytes fitted in the buffer. -/
theorem split_truncated (msgs : List Bytes) (hs : ∀ m ∈ msgs, m.length < 2 ^ 32) (n : Nat) (hn : n < 2 ^ 32)
    (part : Bytes) (hp : part ≠ []) (hle : part.length ≤ n) :
    splitDataBytes (encode msgs ++ (leBytes 4 n ++ part)) = msgs ++ [part] := by
  rw [split_encode_append msgs hs _ (by simp [hp]), split_last n hn part hp hle]

/-- The capture ends inside (or right after) a size field. -/
theorem split_cut_size (msgs : List Bytes) (hs : ∀ m ∈ msgs, m.length < 2 ^ 32) (junk : Bytes)
    (hj : junk ≠ []) (hl : junk.length ≤ 4) : splitDataBytes (encode msgs ++ junk) = msgs := by
  rw [split_encode_append msgs hs _ hj, split_short hl, List.append_nil]

theorem encode_append (ms : List Bytes) (m : Bytes) :
    encode (ms ++ [m]) = encode ms ++ (leBytes 4 m.length ++ m) := by
  induction ms with
  | nil => simp [encode]
  | cons a as ih => simp [encode, ih, List.append_assoc]

/-- Complete messages, the last of which is not empty, come back as they were. -/
theorem split_encode (msgs : List Bytes) (hs : ∀ m ∈ msgs, m.length < 2 ^ 32)
    (hlast : msgs.getLast? ≠ some []) : splitDataBytes (encode msgs) = msgs := by
  induction msgs using snoc_ind with
  | nil => rfl
  | snoc ms m _ =>
    have hm : m ≠ [] := by rintro rfl; simp at hlast
    rw [encode_append]
    exact split_truncated ms (fun x hx => hs x (by simp [hx])) m.length (hs m (by simp)) m hm (Nat.le_refl _)

/-- An empty message at the end is lost: the loop stops as soon as a size field ends the data. -/
theorem split_drops_empty_last (msgs : List Bytes) (hs : ∀ m ∈ msgs, m.length < 2 ^ 32) :
    splitDataBytes (encode (msgs ++ [[]])) = msgs := by
  rw [encode_append]
  exact split_cut_size msgs hs _ (by decide) (by decide)

/-! ### The events made of the messages -/

theorem findIdx?_modify {α : Type} (l : List α) (p : α → Bool) (i : Nat) (f : α → α)
    (hf : ∀ a, p (f a) = p a) : (l.modify i f).findIdx? p = l.findIdx? p := by
  induction l generalizing i with
  | nil => cases i <;> rfl
  | cons a r ih =>
    cases i with
    | zero => simp only [List.modify_zero_cons, List.findIdx?_cons, hf]
    | succ i => simp only [List.modify_succ_cons, List.findIdx?_cons, ih]

theorem indexOf_set (e : Event T R) (k k' : String) (v : Bytes) : indexOf (setAttr e k v) k' = indexOf e k' := by
  unfold setAttr
  cases h : indexOf e k with
  | none => rfl
  | some i =>
    simp only [indexOf]
    rw [List.take_modify]
    exact findIdx?_modify _ _ _ _ (fun a => rfl)

theorem getAttr_eq (e : Event T R) (k : String) :
    getAttr e k = (indexOf e k).bind (fun i => e.attrs[i]?) := by
  unfold getAttr indexOf
  rw [List.find?_eq_bind_findIdx?_getElem?]
  cases h : List.findIdx? (fun a : String × T × Bytes => a.1 == k) (e.attrs.take e.paramsNumber) with
  | none => rfl
  | some i =>
    simp only [Option.bind_some]
    have := (List.findIdx?_eq_some_iff_getElem.1 h).1
    rw [List.length_take] at this
    rw [List.getElem?_take_of_lt (by omega)]

/-- Setting a parameter changes its bytes and nothing else. -/
theorem getAttr_set (e : Event T R) (k k' : String) (v : Bytes) :
    getAttr (setAttr e k v) k' = if k = k' then (getAttr e k').map (fun a => (a.1, a.2.1, v)) else getAttr e k' := by
  rw [getAttr_eq, indexOf_set, getAttr_eq]
  cases hk' : indexOf e k' with
  | none => simp
  | some j =>
    simp only [Option.bind_some]
    unfold setAttr
    cases hk : indexOf e k with
    | none =>
      have : k ≠ k' := by rintro rfl; rw [hk] at hk'; cases hk'
      simp [this]
    | some i =>
      simp only
      by_cases hkk : k = k'
      · subst hkk
        rw [hk] at hk'; cases hk'
        rw [List.getElem?_modify_eq]; simp
      · rw [if_neg hkk]
        have hij : i ≠ j := by
          rintro rfl
          have h1 := (List.findIdx?_eq_some_iff_getElem.1 hk).2.1
          have h2 := (List.findIdx?_eq_some_iff_getElem.1 hk').2.1
          simp only [beq_iff_eq] at h1 h2
          exact hkk (h1.symm.trans h2)
        rw [List.getElem?_modify_ne _ _ hij]

/-- C26 (proved part; an empty last message is lost, `split_drops_empty_last`).  A `sendmmsg` event
whose data are messages, the last one possibly cut, becomes one event per message in order; each
carries its message as data and its length as result, and has every other parameter and every
other part of the event. -/
theorem sendmmsg_partial (e : Event T R) (hname : e.name = "sendmmsg") {t t' : T} {raw : Bytes}
    (msgs : List Bytes) (hs : ∀ m ∈ msgs, m.length < 2 ^ 32) (n : Nat) (hn : n < 2 ^ 32) (last : Bytes)
    (hlast : last ≠ []) (hle : last.length ≤ n)
    (hdata : getAttr e "data" = some ("data", t, encode msgs ++ (leBytes 4 n ++ last)))
    (hres : getAttr e "res" = some ("res", t', raw)) :
    All2 (fun m (c : Event T R) =>
        getData c = m ∧ getResVal c = some (m.length : Int) ∧
        c.name = e.name ∧ c.rest = e.rest ∧ c.paramsNumber = e.paramsNumber ∧
        getAttr c "data" = some ("data", t, m) ∧
        ∀ k, k ≠ "data" → k ≠ "res" → getAttr c k = getAttr e k)
      (msgs ++ [last]) (convertSendmmsg e) := by
  have hsplit : splitDataBytes (getData e) = msgs ++ [last] := by
    simp only [getData, hdata]
    exact split_truncated msgs hs n hn last hlast hle
  unfold convertSendmmsg
  rw [if_pos hname, hsplit]
  have hall : ∀ m ∈ msgs ++ [last], m.length < 2 ^ 32 := by
    intro m hm
    rcases List.mem_append.1 hm with h | h
    · exact hs m h
    · simp at h; subst h; omega
  generalize msgs ++ [last] = l at hall
  have hfield : ∀ (e : Event T R) k v, (setAttr e k v).name = e.name ∧ (setAttr e k v).rest = e.rest ∧
      (setAttr e k v).paramsNumber = e.paramsNumber := by
    intro e k v; unfold setAttr; split <;> simp
  induction l with
  | nil => exact .nil
  | cons m r ih =>
    refine .cons ?_ (ih (fun x hx => hall x (by simp [hx])))
    have hm := hall m (by simp)
    have hd : getAttr (setAttr (setAttr e "res" (leBytes 8 m.length)) "data" m) "data" = some ("data", t, m) := by
      rw [getAttr_set, if_pos rfl, getAttr_set, if_neg (by decide), hdata]; rfl
    refine ⟨by simp only [getData, hd], ?_, ?_, ?_, ?_, hd, ?_⟩
    · simp only [getResVal]
      rw [getAttr_set, if_neg (by decide), getAttr_set, if_pos rfl, hres]
      simp only [Option.map_some, leBytes_length, Nat.le_refl, ↓reduceIte]
      rw [List.take_of_length_le (by rw [leBytes_length]; omega), leValue_leBytes 8 _ (by omega)]
      rw [if_pos (by omega)]
    · rw [(hfield _ _ _).1, (hfield _ _ _).1]
    · rw [(hfield _ _ _).2.1, (hfield _ _ _).2.1]
    · rw [(hfield _ _ _).2.2, (hfield _ _ _).2.2]
    · intro k h1 h2
      rw [getAttr_set, if_neg (Ne.symm h1), getAttr_set, if_neg (Ne.symm h2)]

/-- Nothing is made up: every byte of every new event comes from the data, and no event of another
name is split. -/
theorem split_length (data : Bytes) : ((splitDataBytes data).map List.length).sum + 4 * (splitDataBytes data).length ≤ data.length := by
  have : ∀ fuel (data : Bytes), ((splitGo fuel data).map List.length).sum + 4 * (splitGo fuel data).length ≤ data.length := by
    intro fuel
    induction fuel with
    | zero => intro data; simp [splitGo]
    | succ fuel ih =>
      intro data
      simp only [splitGo]
      split
      · simp
      · split
        · have := ih ((data.drop 4).drop (leValue (data.take 4)))
          simp only [List.map_cons, List.sum_cons, List.length_take, List.length_cons] at this ⊢
          simp only [List.length_drop] at this ⊢
          rename_i h
          simp only [List.length_drop] at h
          omega
        · simp; omega
  exact this _ _

theorem not_sendmmsg (e : Event T R) (h : e.name ≠ "sendmmsg") : convertSendmmsg e = [] := by
  simp [convertSendmmsg, h]

example : ∃ e : Event Unit Nat, e.name = "sendmmsg" ∧
    getAttr e "data" = some ("data", (), encode [[1, 2], []] ++ (leBytes 4 9 ++ [7, 8])) ∧
    (convertSendmmsg e).map getData = [[1, 2], [], [7, 8]] ∧
    (convertSendmmsg e).map getResVal = [some 2, some 0, some 2] :=
  ⟨⟨"sendmmsg", 2, [("res", (), [0, 0, 0, 0, 0, 0, 0, 0]),
    ("data", (), encode [[1, 2], []] ++ (leBytes 4 9 ++ [7, 8])), ("x", (), [])], 5⟩, by decide⟩

/-- C26: the result of a system call is its 8 bytes read as a signed number, least significant byte first;
negative results are errors of the call. -/
theorem resVal_signed (e : Event T R) {k : String} {t : T} {v : Bytes} (h : getAttr e "res" = some (k, t, v)) (n : Int)
    (hn : -(2 ^ 63) ≤ n ∧ n < 2 ^ 63) (hv : v = leBytes 8 (n % 2 ^ 64).toNat) : getResVal e = some n := by
  unfold getResVal
  simp only [h, hv, leBytes_length, Nat.le_refl, if_true]
  rw [List.take_of_length_le (by rw [leBytes_length]; omega), leValue_leBytes 8 _ (by omega)]
  split <;> congr 1 <;> omega

end Kindling.Model
