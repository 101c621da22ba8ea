import Verif.Basic
/-
The window of recent seconds the CPU analyzer keeps per thread:
`PutEventToSegments` (cpuanalyzer/cpu_analyzer.go:267-364), circle_queue.go, model.go:11-88.

Times are nanoseconds, unbounded naturals: seconds since 1970 times 10^9 stay far below 2^64, and the
signed differences the code takes (`int(a-b)` of two unsigned second counts, cpu_analyzer.go:282, 288)
are then the exact integer differences.
-/
namespace Kindling.Cpu

/-- `TimedEventKind` (model.go:13-19). -/
inductive Kind | cpu | javaFutex | transactionId | span | innerCall
deriving DecidableEq, Repr

/-- `TimedEvent` (model.go:29-33); `id` stands for the rest of the event. -/
structure Ev where
  kind : Kind
  start : Nat
  stop : Nat
  id : Nat
deriving DecidableEq, Repr

/-- `Segment` (model.go:47-57); the five event lists as one function of the kind, without
`IndexTimestamp` (only written, never read). -/
structure Seg where
  startTime : Nat
  endTime : Nat
  lists : Kind → List Ev
  isSend : Nat

/-- `nanoToSeconds` (cpu_analyzer.go:265). -/
@[irreducible] def nano : Nat := 1000000000

/-- `newSegment` for second `c` (model.go:59-71, called at cpu_analyzer.go:307-308, 326-327, 352-353). -/
def newSeg (c : Nat) : Seg := ⟨c * nano, (c + 1) * nano, fun _ => [], 0⟩

/-- `putTimedEvent` (model.go:73-86) followed by `IsSend = 0` (cpu_analyzer.go:336-337). -/
def file (e : Ev) (s : Seg) : Seg :=
  { s with lists := fun k => if k = e.kind then s.lists k ++ [e] else s.lists k, isSend := 0 }

/-- `TimeSegments` (model.go:35-41). -/
structure TS where
  name : String
  base : Nat
  segs : List Seg

/-- The filing loop `for i := lo; i <= hi && i < n; i++` (cpu_analyzer.go:333-339, 360-365).
`none` is the panic of an index out of range. -/
def fileLoop (e : Ev) (hi : Int) (n : Nat) (i : Nat) (segs : List Seg) : Option (List Seg) :=
  if (i : Int) ≤ hi ∧ i < n then
    match segs[i]? with
    | none => none
    | some s => fileLoop e hi n (i + 1) (segs.set i (file e s))
  else some segs
termination_by n - i

/-- The loop that moves the second half to the front and puts new segments in its place
(cpu_analyzer.go:322-329). -/
def halfLoop (cs base : Nat) (i : Nat) (segs : List Seg) : Option (List Seg) :=
  if i < cs then
    match segs[i + cs]? with
    | none => none
    | some s => halfLoop cs base (i + 1) ((segs.set i s).set (i + cs) (newSeg (base + (i + cs))))
  else some segs
termination_by cs - i

/-- `n` new segments (cpu_analyzer.go:306-310, 351-355). -/
def fresh (n base : Nat) : List Seg := (List.range n).map (fun i => newSeg (base + i))

/-- `PutEventToSegments` for a thread already known (cpu_analyzer.go:281-340). -/
def putKnown (n : Nat) (ts : TS) (name : String) (e : Ev) : Option TS :=
  let endOffset : Int := (e.stop / nano : Nat) - (ts.base : Int)
  if endOffset < 0 then some ts
  else
    let startOffset : Nat := ((e.start / nano : Nat) - (ts.base : Int)).toNat
    if n ≤ startOffset ∨ (n : Int) < endOffset then
      if 3 * n ≤ startOffset * 2 then
        let base := e.start / nano
        (fileLoop e (endOffset - startOffset) n 0 (fresh n base)).map (fun s => ⟨name, base, s⟩)
      else
        let cs := n / 2
        let base := ts.base + cs
        match halfLoop cs base 0 ts.segs with
        | none => none
        | some segs => (fileLoop e (endOffset - cs) n (startOffset - cs) segs).map (fun s => ⟨name, base, s⟩)
    else (fileLoop e endOffset n startOffset ts.segs).map (fun s => ⟨name, ts.base, s⟩)

/-- `PutEventToSegments` for a new thread (cpu_analyzer.go:343-367). -/
def putNew (n : Nat) (name : String) (e : Ev) : Option TS :=
  let base := e.start / nano
  (fileLoop e ((e.stop / nano : Nat) - (base : Int)) n 0 (fresh n base)).map (fun s => ⟨name, base, s⟩)

/-! ### Specification -/

/-- The event's time span meets second `c`. -/
def Ev.covers (e : Ev) (c : Nat) : Prop := e.start < (c + 1) * 1000000000 ∧ c * 1000000000 ≤ e.stop

instance (e : Ev) (c : Nat) : Decidable (e.covers c) := by unfold Ev.covers; infer_instance

/-- The segment kept for second `c`. -/
def TS.at (ts : TS) (c : Nat) : Option Seg := if c < ts.base then none else ts.segs[c - ts.base]?

/-- `n` segments, and the `i`-th one is the one of second `base + i`. -/
def TS.Ok (n : Nat) (ts : TS) : Prop :=
  ts.segs.length = n ∧
  ∀ i s, ts.segs[i]? = some s → s.startTime = (ts.base + i) * nano ∧ s.endTime = (ts.base + i + 1) * nano

/-! ### The loops -/

theorem covers_iff (e : Ev) (c : Nat) : e.covers c ↔ e.start / nano ≤ c ∧ c ≤ e.stop / nano := by
  unfold Ev.covers nano
  omega

theorem fileLoop_get (e : Ev) (hi : Int) (n i : Nat) (segs : List Seg) (hl : segs.length = n) :
    ∃ segs', fileLoop e hi n i segs = some segs' ∧ segs'.length = n ∧
      ∀ j : Nat, segs'[j]? = if i ≤ j ∧ (j : Int) ≤ hi then (segs[j]?).map (file e) else segs[j]? := by
  fun_induction fileLoop e hi n i segs with
  | case1 i segs h hnone =>
    rw [List.getElem?_eq_none_iff] at hnone; omega
  | case2 i segs h s hs ih =>
    obtain ⟨segs', h1, h2, h3⟩ := ih (by simpa using hl)
    refine ⟨segs', h1, h2, fun j => ?_⟩
    rw [h3 j]
    by_cases hij : i = j
    · subst hij
      rw [if_neg (by omega), if_pos ⟨Nat.le_refl _, h.1⟩, hs, List.getElem?_set_self (by omega)]
      rfl
    · rw [List.getElem?_set_ne hij]
      by_cases hc : i ≤ j ∧ (j : Int) ≤ hi
      · rw [if_pos hc, if_pos (by omega)]
      · rw [if_neg hc, if_neg (by omega)]
  | case3 i segs h =>
    refine ⟨segs, rfl, hl, fun j => ?_⟩
    split
    · rename_i hc
      have : n ≤ j := by
        apply Classical.byContradiction; intro hn
        apply h; omega
      rw [List.getElem?_eq_none (by omega)]; rfl
    · rfl

theorem halfLoop_get (cs base : Nat) (i : Nat) (segs : List Seg) (hl : 2 * cs ≤ segs.length) (hi : i ≤ cs) :
    ∃ segs', halfLoop cs base i segs = some segs' ∧ segs'.length = segs.length ∧
      ∀ j, segs'[j]? = if i ≤ j ∧ j < cs then segs[j + cs]?
        else if i + cs ≤ j ∧ j < 2 * cs then some (newSeg (base + j)) else segs[j]? := by
  fun_induction halfLoop cs base i segs with
  | case1 i segs h hnone =>
    rw [List.getElem?_eq_none_iff] at hnone; omega
  | case2 i segs h s hs ih =>
    obtain ⟨segs', h1, h2, h3⟩ := ih (by simpa using hl) (by omega)
    refine ⟨segs', h1, by simpa using h2, fun j => ?_⟩
    rw [h3 j]
    by_cases hA : i ≤ j ∧ j < cs
    · by_cases hij : i = j
      · subst hij
        rw [if_neg (by omega), if_neg (by omega), if_pos hA, List.getElem?_set_ne (by omega),
          List.getElem?_set_self (by omega), hs]
      · rw [if_pos (by omega), if_pos hA, List.getElem?_set_ne (by omega), List.getElem?_set_ne (by omega)]
    · rw [if_neg (by omega), if_neg hA]
      by_cases hB : i + cs ≤ j ∧ j < 2 * cs
      · by_cases hij : i + cs = j
        · subst hij
          rw [if_neg (by omega), if_pos hB, List.getElem?_set_self (by simp; omega)]
        · rw [if_pos (by omega), if_pos hB]
      · rw [if_neg (by omega), if_neg hB, List.getElem?_set_ne (by omega), List.getElem?_set_ne (by omega)]
  | case3 i segs h =>
    refine ⟨segs, rfl, rfl, fun j => ?_⟩
    rw [if_neg (by omega), if_neg (by omega)]

theorem fresh_get (n base j : Nat) : (fresh n base)[j]? = if j < n then some (newSeg (base + j)) else none := by
  unfold fresh
  rw [List.getElem?_map]
  by_cases h : j < n
  · rw [List.getElem?_range h, if_pos h]; rfl
  · rw [List.getElem?_eq_none (by simp; omega), if_neg h]; rfl

/-- The parts of a result that the theorems below read off. -/
structure Filed (n : Nat) (e : Ev) (old : Nat → Seg) (r : TS) : Prop where
  ok : r.Ok n
  has : ∀ c, r.base ≤ c → c < r.base + n →
    r.at c = some (if e.covers c then file e (old c) else old c)

theorem filed_of {n : Nat} {e : Ev} {base : Nat} {name : String} {lo : Nat} {segs segs' : List Seg} {old : Nat → Seg}
    (hlen : segs'.length = n)
    (hold : ∀ j, j < n → segs[j]? = some (old (base + j)))
    (htime : ∀ j, j < n → (old (base + j)).startTime = (base + j) * nano ∧ (old (base + j)).endTime = (base + j + 1) * nano)
    (hlo : ∀ j, j < n → (lo ≤ j ↔ e.start / nano ≤ base + j))
    (hget : ∀ j : Nat, segs'[j]? = if lo ≤ j ∧ (j : Int) ≤ ((e.stop / nano : Nat) : Int) - base then (segs[j]?).map (file e) else segs[j]?) :
    Filed n e old ⟨name, base, segs'⟩ := by
  have key : ∀ j, j < n → segs'[j]? = some (if e.covers (base + j) then file e (old (base + j)) else old (base + j)) := by
    intro j hj
    rw [hget j, hold j hj]
    by_cases hc : e.covers (base + j)
    · have := (covers_iff e (base + j)).1 hc
      rw [if_pos hc, if_pos ⟨(hlo j hj).2 this.1, by omega⟩]; rfl
    · rw [if_neg hc, if_neg]
      rintro ⟨h1, h2⟩
      exact hc ((covers_iff e (base + j)).2 ⟨(hlo j hj).1 h1, by omega⟩)
  constructor
  · refine ⟨hlen, fun i s hs => ?_⟩
    have hi : i < n := by
      have := (List.getElem?_eq_some_iff.1 hs).1
      simp only at this
      omega
    simp only at hs
    rw [key i hi] at hs
    cases hs
    simp only
    split
    · exact htime i hi
    · exact htime i hi
  · intro c h1 h2
    simp only at h1 h2
    unfold TS.at
    simp only
    rw [if_neg (by omega), key (c - base) (by omega)]
    rw [show base + (c - base) = c by omega]

/-- The base after a put: unchanged, half a window later, or the event's first second. -/
def newBase (n base : Nat) (e : Ev) : Nat :=
  let s := e.start / nano - base
  if e.stop / nano < base then base
  else if n ≤ s ∨ base + n < e.stop / nano then (if 3 * n ≤ s * 2 then e.start / nano else base + n / 2) else base

/-- The segment of second `c` before: the one kept, or an empty one. -/
def TS.old (ts : TS) (c : Nat) : Seg := (ts.at c).getD (newSeg c)

theorem ok_old {n : Nat} {ts : TS} (h : ts.Ok n) (c : Nat) :
    (ts.old c).startTime = c * nano ∧ (ts.old c).endTime = (c + 1) * nano := by
  unfold TS.old TS.at
  split
  · exact ⟨rfl, rfl⟩
  · rename_i hb
    cases hs : ts.segs[c - ts.base]? with
    | none => exact ⟨rfl, rfl⟩
    | some s =>
      have := h.2 _ _ hs
      rw [show ts.base + (c - ts.base) = c by omega] at this
      exact this

theorem ok_get {n : Nat} {ts : TS} (h : ts.Ok n) (j : Nat) (hj : j < n) : ts.segs[j]? = some (ts.old (ts.base + j)) := by
  unfold TS.old TS.at
  rw [if_neg (by omega), show ts.base + j - ts.base = j by omega]
  rw [List.getElem?_eq_getElem (by rw [h.1]; exact hj)]
  rfl

theorem old_beyond {n : Nat} {ts : TS} (h : ts.Ok n) {c : Nat} (hc : ts.base + n ≤ c) : ts.old c = newSeg c := by
  unfold TS.old TS.at
  rw [if_neg (by omega), List.getElem?_eq_none (by rw [h.1]; omega)]
  rfl

/-- The window sizes for which the analyzer works: even ones (the default is 40), and 1. -/
def GoodSize (n : Nat) : Prop := 0 < n ∧ (n % 2 = 0 ∨ n = 1)

/-- C32 and C33, one step.  For an even window size (or size 1): putting an event never fails; the
window still has one segment per second, in order; its base does not go back; a second in the
new window holds what it held before (nothing if it was not in the window), and in addition the
event exactly if the event's span meets this second.  An event that ended before the window is
ignored. -/
theorem put_known {n : Nat} (hn : GoodSize n) {ts : TS} (h : ts.Ok n) (name : String) (e : Ev) :
    ∃ r, putKnown n ts name e = some r ∧ r.base = newBase n ts.base e ∧ ts.base ≤ r.base ∧
      (e.stop / nano < ts.base → r = ts) ∧
      Filed n e ts.old r := by
  obtain ⟨hpos, hn⟩ := hn
  unfold putKnown
  simp only
  by_cases h0 : ((e.stop / nano : Nat) : Int) - (ts.base : Int) < 0
  · rw [if_pos h0]
    refine ⟨ts, rfl, ?_, Nat.le_refl _, fun _ => rfl, ⟨h, ?_⟩⟩
    · unfold newBase; rw [if_pos (by omega)]
    · intro c h1 h2
      rw [if_neg (by rw [covers_iff]; omega)]
      have := ok_get h (c - ts.base) (by omega)
      unfold TS.at
      rw [if_neg (by omega), this, show ts.base + (c - ts.base) = c by omega]
  · rw [if_neg h0]
    have hso : ((e.start / nano : Nat) - (ts.base : Int)).toNat = e.start / nano - ts.base := by omega
    rw [hso]
    generalize hs : e.start / nano - ts.base = so at *
    have hnb : newBase n ts.base e = if n ≤ so ∨ ts.base + n < e.stop / nano then
        (if 3 * n ≤ so * 2 then e.start / nano else ts.base + n / 2) else ts.base := by
      unfold newBase; simp only; rw [if_neg (by omega), hs]
    by_cases h1 : n ≤ so ∨ (n : Int) < ((e.stop / nano : Nat) : Int) - (ts.base : Int)
    · rw [if_pos h1]
      rw [if_pos (by omega)] at hnb
      by_cases h2 : 3 * n ≤ so * 2
      · -- everything is cleared
        rw [if_pos h2] at hnb
        rw [if_pos h2]
        obtain ⟨segs', g1, g2, g3⟩ := fileLoop_get e (((e.stop / nano : Nat) : Int) - (ts.base : Int) - (so : Nat)) n 0
          (fresh n (e.start / nano)) (by simp [fresh])
        rw [g1]
        refine ⟨_, rfl, by rw [hnb], by simp only; omega, by intro hh; omega, ?_⟩
        refine filed_of (lo := 0) (segs := fresh n (e.start / nano)) g2 ?_ ?_ ?_ ?_
        · intro j hj
          rw [fresh_get, if_pos hj, old_beyond h (by omega)]
        · intro j hj; exact ok_old h _
        · intro j hj; omega
        · intro j
          rw [g3 j, show ((e.stop / nano : Nat) : Int) - (ts.base : Int) - (so : Nat) = ((e.stop / nano : Nat) : Int) - (e.start / nano : Nat) by omega]
      · -- the first half is dropped
        rw [if_neg h2] at hnb
        rw [if_neg h2]
        obtain ⟨half, k1, k2, k3⟩ := halfLoop_get (n / 2) (ts.base + n / 2) 0 ts.segs (by rw [h.1]; omega) (by omega)
        obtain ⟨segs', g1, g2, g3⟩ := fileLoop_get e (((e.stop / nano : Nat) : Int) - (ts.base : Int) - ((n / 2 : Nat) : Int)) n (so - n / 2)
          half (by rw [k2, h.1])
        simp only [k1]
        rw [g1]
        refine ⟨_, rfl, by rw [hnb], by simp only; omega, by intro hh; omega, ?_⟩
        refine filed_of (lo := so - n / 2) (segs := half) g2 ?_ ?_ ?_ ?_
        · intro j hj
          rw [k3 j]
          by_cases ha : 0 ≤ j ∧ j < n / 2
          · rw [if_pos ha, ok_get h _ (by omega)]
            congr 2; omega
          · rw [if_neg ha]
            by_cases hb : 0 + n / 2 ≤ j ∧ j < 2 * (n / 2)
            · rw [if_pos hb, old_beyond h (by omega)]
            · rw [if_neg hb, ok_get h _ hj]
              congr 2; omega
        · intro j hj; exact ok_old h _
        · intro j hj; omega
        · intro j
          rw [g3 j, show ((e.stop / nano : Nat) : Int) - (ts.base : Int) - ((n / 2 : Nat) : Int) = ((e.stop / nano : Nat) : Int) - (ts.base + n / 2 : Nat) by omega]
    · rw [if_neg h1]
      rw [if_neg (by omega)] at hnb
      obtain ⟨segs', g1, g2, g3⟩ := fileLoop_get e (((e.stop / nano : Nat) : Int) - (ts.base : Int)) n so ts.segs h.1
      rw [g1]
      refine ⟨_, rfl, by rw [hnb], Nat.le_refl _, by intro hh; omega, ?_⟩
      refine filed_of (lo := so) (segs := ts.segs) g2 ?_ ?_ ?_ ?_
      · intro j hj; exact ok_get h j hj
      · intro j hj; exact ok_old h _
      · intro j hj; omega
      · exact g3

/-- The same for the first event of a thread, for every size. -/
theorem put_new (n : Nat) (name : String) (e : Ev) :
    ∃ r, putNew n name e = some r ∧ r.base = e.start / nano ∧ Filed n e newSeg r := by
  unfold putNew
  simp only
  obtain ⟨segs', g1, g2, g3⟩ := fileLoop_get e (((e.stop / nano : Nat) : Int) - ((e.start / nano : Nat) : Int)) n 0
    (fresh n (e.start / nano)) (by simp [fresh])
  rw [g1]
  refine ⟨_, rfl, rfl, ?_⟩
  refine filed_of (lo := 0) (segs := fresh n (e.start / nano)) g2 ?_ ?_ ?_ g3
  · intro j hj; rw [fresh_get, if_pos hj]
  · intro j hj; exact ⟨rfl, rfl⟩
  · intro j hj; omega

/-- No event that ends after the window's base is dropped altogether (sizes above 1). -/
theorem event_kept {n base : Nat} (hn : n % 2 = 0) (hpos : 0 < n) (e : Ev) (hse : e.start ≤ e.stop)
    (h : base ≤ e.stop / nano) :
    ∃ c, newBase n base e ≤ c ∧ c < newBase n base e + n ∧ e.covers c := by
  have hdiv : e.start / nano ≤ e.stop / nano := Nat.div_le_div_right hse
  generalize hs : e.start / nano = s at *
  generalize ht : e.stop / nano = t at *
  have key : newBase n base e = if n ≤ s - base ∨ base + n < t then (if 3 * n ≤ (s - base) * 2 then s else base + n / 2) else base := by
    unfold newBase; simp only [hs, ht]; rw [if_neg (by omega)]
  refine ⟨max s (newBase n base e), by omega, ?_, ?_⟩
  · rw [key]; split
    · split <;> omega
    · omega
  · rw [covers_iff, hs, ht, key]
    split
    · split <;> omega
    · omega

/-- With window size 1 an event of the next second is dropped (the base stays): the size of the
window must not be 1. -/
theorem size_one_drops (base : Nat) (e : Ev) (hs : e.start / nano = base + 1) (c : Nat)
    (h1 : newBase 1 base e ≤ c) (h2 : c < newBase 1 base e + 1) : ¬ e.covers c := by
  rw [covers_iff]
  unfold newBase at h1 h2
  simp only [hs] at h1 h2
  by_cases ha : e.stop / nano < base
  · rw [if_pos ha] at h1 h2; omega
  · rw [if_neg ha] at h1 h2
    rw [if_pos (by omega), if_neg (by omega)] at h1 h2
    omega

/-- With an odd window size above 1 the order is lost: every time the first half is dropped, the last
segment stays where it is although it should now be for a later second. -/
theorem odd_size_breaks {h : Nat} (hpos : 0 < h) {ts : TS} (hok : ts.Ok (2 * h + 1)) (name : String) (e : Ev)
    (h0 : ts.base ≤ e.stop / nano)
    (h1 : 2 * h + 1 ≤ e.start / nano - ts.base ∨ ts.base + (2 * h + 1) < e.stop / nano)
    (h2 : (e.start / nano - ts.base) * 2 < 3 * (2 * h + 1)) :
    ∃ r, putKnown (2 * h + 1) ts name e = some r ∧ ¬ r.Ok (2 * h + 1) := by
  generalize hnn : 2 * h + 1 = n at *
  unfold putKnown
  simp only
  have hso : ((e.start / nano : Nat) - (ts.base : Int)).toNat = e.start / nano - ts.base := by omega
  rw [if_neg (by omega), hso, if_pos (by omega), if_neg (by omega)]
  obtain ⟨half, k1, k2, k3⟩ := halfLoop_get (n / 2) (ts.base + n / 2) 0 ts.segs (by rw [hok.1]; omega) (by omega)
  obtain ⟨segs', g1, g2, g3⟩ := fileLoop_get e (((e.stop / nano : Nat) : Int) - (ts.base : Int) - ((n / 2 : Nat) : Int)) n (e.start / nano - ts.base - n / 2)
    half (by rw [k2, hok.1])
  simp only [k1]
  rw [g1]
  refine ⟨_, rfl, ?_⟩
  rintro ⟨_, hr⟩
  simp only at hr
  have hk : half[2 * h]? = some (ts.old (ts.base + 2 * h)) := by
    rw [k3 (2 * h), if_neg (by omega), if_neg (by omega)]
    exact ok_get hok _ (by omega)
  have hg := g3 (2 * h)
  rw [hk] at hg
  have ht := (ok_old hok (ts.base + 2 * h)).1
  have hcontra : ∀ s, segs'[2 * h]? = some s → s.startTime = (ts.base + 2 * h) * nano → False := by
    intro s hs hst
    have := (hr _ s hs).1
    rw [hst] at this
    have hh : ts.base + 2 * h = ts.base + n / 2 + 2 * h := Nat.eq_of_mul_eq_mul_right (by unfold nano; omega) this
    omega
  split at hg
  · exact hcontra _ hg ht
  · exact hcontra _ hg ht

/-! ### A whole history of one thread -/

/-- All events of one thread, from its first one. -/
def putAll (n : Nat) : Option TS → List (String × Ev) → Option (Option TS)
  | ts, [] => some ts
  | none, (name, e) :: r => match putNew n name e with
    | none => none
    | some ts => putAll n (some ts) r
  | some ts, (name, e) :: r => match putKnown n ts name e with
    | none => none
    | some ts' => putAll n (some ts') r

/-- The base of the window after each event. -/
def bases (n : Nat) : Option Nat → List Ev → List (Ev × Nat)
  | _, [] => []
  | none, e :: r => (e, e.start / nano) :: bases n (some (e.start / nano)) r
  | some b, e :: r => (e, newBase n b e) :: bases n (some (newBase n b e)) r

/-- The events of a kind that were filed under second `c`: those that meet it and arrived while it was
in the window. -/
def filedUnder (n : Nat) (k : Kind) (c : Nat) (l : List (Ev × Nat)) : List Ev :=
  (l.filter (fun p => decide (p.1.kind = k ∧ p.1.covers c ∧ c < p.2 + n))).map (·.1)

theorem putAll_known {n : Nat} (hn : GoodSize n) (l : List (String × Ev)) {ts : TS} (hok : ts.Ok n) :
    ∃ r, putAll n (some ts) l = some (some r) ∧ r.Ok n ∧ ts.base ≤ r.base ∧
      ∀ c, r.base ≤ c → c < r.base + n → ∃ s, r.at c = some s ∧
        ∀ k, s.lists k = (ts.old c).lists k ++ filedUnder n k c (bases n (some ts.base) (l.map (·.2))) := by
  induction l generalizing ts with
  | nil =>
    refine ⟨ts, rfl, hok, Nat.le_refl _, fun c h1 h2 => ?_⟩
    have := ok_get hok (c - ts.base) (by omega)
    refine ⟨ts.old c, ?_, by simp [bases, filedUnder]⟩
    unfold TS.at
    rw [if_neg (by omega), this, show ts.base + (c - ts.base) = c by omega]
  | cons p l ih =>
    obtain ⟨name, e⟩ := p
    obtain ⟨t1, h1, h2, h3, _, h5⟩ := put_known hn hok name e
    obtain ⟨r, g1, g2, g3, g4⟩ := ih h5.ok
    refine ⟨r, ?_, g2, by omega, fun c hc1 hc2 => ?_⟩
    · simp only [putAll, h1]; exact g1
    · obtain ⟨s, hs1, hs2⟩ := g4 c hc1 hc2
      refine ⟨s, hs1, fun k => ?_⟩
      rw [hs2 k]
      simp only [List.map_cons, bases, filedUnder, List.filter_cons]
      rw [← h2]
      by_cases hin : c < t1.base + n
      · have hold : t1.old c = if e.covers c then file e (ts.old c) else ts.old c := by
          conv => lhs; unfold TS.old
          rw [h5.has c (by omega) hin, Option.getD_some]
        rw [hold]
        by_cases hc : e.covers c
        · by_cases hk : e.kind = k
          · subst hk; simp [hc, hin, file]
          · simp [hc, hk, file, Ne.symm hk]
        · simp [hc]
      · have hold : t1.old c = newSeg c := old_beyond h5.ok (by omega)
        have hold' : ts.old c = newSeg c := old_beyond hok (by omega)
        rw [hold, hold']
        simp [hin]

/-- C32 and C33.  After any history of events of a thread, with any start and end times: the window has
one segment per second from its base on, and the segment of a second holds, per kind and in order
of arrival, exactly the events whose span meets this second and that arrived while the second was
in the window. -/
theorem thread_history_partial {n : Nat} (hn : GoodSize n) (name : String) (e : Ev) (l : List (String × Ev)) :
    ∃ r, putAll n none ((name, e) :: l) = some (some r) ∧ r.Ok n ∧ e.start / nano ≤ r.base ∧
      ∀ c, r.base ≤ c → c < r.base + n → ∃ s, r.at c = some s ∧
        ∀ k, s.lists k = filedUnder n k c (bases n none (e :: l.map (·.2))) := by
  obtain ⟨t1, h1, h2, h3⟩ := put_new n name e
  obtain ⟨r, g1, g2, g3, g4⟩ := putAll_known hn l h3.ok
  refine ⟨r, by simp only [putAll, h1]; exact g1, g2, by omega, fun c hc1 hc2 => ?_⟩
  obtain ⟨s, hs1, hs2⟩ := g4 c hc1 hc2
  refine ⟨s, hs1, fun k => ?_⟩
  rw [hs2 k]
  simp only [bases, filedUnder, List.filter_cons]
  rw [← h2]
  by_cases hin : c < t1.base + n
  · have hold : t1.old c = if e.covers c then file e (newSeg c) else newSeg c := by
      conv => lhs; unfold TS.old
      rw [h3.has c (by omega) hin, Option.getD_some]
    rw [hold]
    by_cases hc : e.covers c
    · by_cases hk : e.kind = k
      · subst hk; simp [hc, hin, file, newSeg]
      · simp [hc, hk, file, newSeg, Ne.symm hk]
    · simp [hc, newSeg]
  · rw [old_beyond h3.ok (by omega)]
    simp [hin, newSeg]

/-- An event longer than the window is missing from the seconds it covers beyond the window. -/
theorem long_event_missing {n : Nat} (k : Kind) (c : Nat) (e : Ev) (b : Nat) (rest : List (Ev × Nat))
    (hc : b + n ≤ c) : filedUnder n k c ((e, b) :: rest) = filedUnder n k c rest := by
  unfold filedUnder
  simp only [List.filter_cons]
  rw [if_neg]
  simp; omega

/-- Size 40; an event of second 100, one of 100-101, then one of 139-142 (drops the first half). -/
example : bases 40 none [⟨.cpu, 100 * nano, 100 * nano + 5, 0⟩, ⟨.cpu, 100 * nano + 7, 101 * nano, 1⟩, ⟨.span, 139 * nano, 142 * nano, 2⟩] =
    [(⟨.cpu, 100 * nano, 100 * nano + 5, 0⟩, 100), (⟨.cpu, 100 * nano + 7, 101 * nano, 1⟩, 100), (⟨.span, 139 * nano, 142 * nano, 2⟩, 120)] := by
  simp [bases, newBase, nano]
example : GoodSize 40 := ⟨by decide, Or.inl rfl⟩
/-- A window of size 3 and an event that breaks it. -/
example : ∃ ts : TS, ts.Ok 3 ∧ ∃ r, putKnown 3 ts "t" ⟨.cpu, 13 * nano, 13 * nano, 0⟩ = some r ∧ ¬ r.Ok 3 := by
  obtain ⟨ts, h1, h2, h3⟩ := put_new 3 "t" ⟨.cpu, 10 * nano, 10 * nano, 0⟩
  have hb : ts.base = 10 := by rw [h2]; simp [nano]
  refine ⟨ts, h3.ok, odd_size_breaks (h := 1) (by decide) h3.ok "t" _ ?_ ?_ ?_⟩ <;> (rw [hb]; simp [nano])

end Kindling.Cpu
