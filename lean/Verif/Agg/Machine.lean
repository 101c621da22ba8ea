import Verif.Agg.Cumulative
import Verif.Agg.Props
import Verif.Agg.ConcProps
/-
C115: the aggregator counts in 64 bits.

`Verif.Agg.Model` and `Verif.Agg.Cumulative` add unbounded numbers.  Here the same functions are written down with the additions
of the machine: an `int64` (sums, the count of an average, the value of a counter) wraps at 2^63, a `uint64` (the count and the
buckets of a histogram) at 2^64.  It is proved that the machine's state is the state of the unbounded model taken modulo 2^64, at
every moment of every history, and that the two are equal as long as the weight of all that was recorded is below 2^63.

Simplified as in the two models, apart from the numbers: one call is one step.
-/
namespace Kindling.Agg.Machine
open Kindling

/-! ## Numbers -/

/-- An `int64`: the number between -2^63 and 2^63 - 1 that differs by a multiple of 2^64. -/
def i64 (x : Int) : Int := x.bmod 18446744073709551616

/-- A `uint64`. -/
def u64 (n : Nat) : Nat := n % 18446744073709551616

/-! ## Code -/

/-- agg_values.go:307-311: the bucket loop of `histogramValue.calculate`. -/
def bumpBuckets (v : Int) : List Int → List Nat → List Nat
  | b :: bs, c :: cs => (if v ≤ b then u64 (c + 1) else c) :: bumpBuckets v bs cs
  | _, cs => cs

/-- The `calculate` methods: agg_values.go:178-185 (max), 205-207 (sum), 228-234 (avg),
257-259 (last), 276-278 (count), 302-313 (histogram). -/
def calculate : Acc → Int → Acc
  | .sum a, v => .sum (i64 (a + v))
  | .max a, v => .max (if a < v then v else a)
  | .avg a c, v => .avg (i64 (a + v)) (i64 (c + 1))
  | .last _, v => .last v
  | .count a, _ => .count (i64 (a + 1))
  | .hist h, v => .hist { h with sum := i64 (h.sum + v), count := u64 (h.count + 1), buckets := bumpBuckets v h.bounds h.buckets }

/-- agg_values.go:338-340. -/
def addBuckets : List Nat → List Nat → Option (List Nat)
  | cs, [] => some cs
  | [], _ :: _ => none
  | c :: cs, d :: ds => (addBuckets cs ds).map (u64 (c + d) :: ·)

/-- The `merge` methods: agg_values.go:196-198, 214-217, 244-250 (`int64(metric.Count)`), 266-268, 281-284, 330-342. -/
def merge : Acc → Hist → Res Acc
  | .max _, _ => .err
  | .last _, _ => .err
  | .sum a, h => .ok (.sum (i64 (a + h.sum)))
  | .avg a c, h => .ok (.avg (i64 (a + h.sum)) (i64 (c + i64 h.count)))
  | .count a, h => .ok (.count (i64 (a + i64 h.count)))
  | .hist s, h =>
    if s.bounds.length ≠ h.bounds.length then .err
    else match addBuckets s.buckets h.buckets with
      | none => .panic
      | some b => .ok (.hist { s with sum := i64 (s.sum + h.sum), count := u64 (s.count + h.count), buckets := b })

/-- agg_values.go:109-115. -/
def apply (a : Acc) : MData → Option Acc
  | .int v => some (calculate a v)
  | .hist h => match merge a h with
    | .ok a' => some a'
    | .err => some a
    | .panic => none
  | .none => some a

/-- The `get` methods: agg_values.go:186-190, 208-210, 235-239 (the quotient of the smallest number by -1 wraps), 260-262,
286-288, 315-324. -/
def get : Acc → Option MData
  | .sum v => some (.int v)
  | .max v => some (.int v)
  | .avg v c => if c = 0 then none else some (.int (i64 (v.tdiv c)))
  | .last v => some (.int v)
  | .count v => some (.int v)
  | .hist h => some (.hist h)

def getVal (v : AggVal) : Option Metric := (get v.acc).map (fun d => ⟨v.name, d⟩)

def applyVal (v : AggVal) (d : MData) : Option AggVal := (apply v.acc d).map (fun a => ⟨v.name, a⟩)

/-- agg_values.go:104-117 `calculate`; `none` is a panic. -/
def vmCalculate (vm : ValuesMap) (m : Metric) (ts : Nat) : Option ValuesMap :=
  match AMap.get vm.values m.name with
  | none => some vm
  | some vs => match mapOpt (fun v => applyVal v m.data) vs with
    | none => none
    | some vs' => some { values := AMap.set vm.values m.name vs', ts := ts }

/-- agg_values.go:131-137 `getAll`; `none` is a panic. -/
def vmGetAll (vm : ValuesMap) : Option (List Metric) :=
  (mapOpt (fun p => mapOpt getVal p.2) vm.values).map List.flatten

/-- value_recorder.go:37-39. -/
def vmRecordAll (vm : ValuesMap) : List Metric → Nat → Option ValuesMap
  | [], _ => some vm
  | m :: ms, ts => match vmCalculate vm m ts with
    | none => none
    | some vm' => vmRecordAll vm' ms ts

/-- value_recorder.go:28-40 `Record`. -/
def record (kinds : KindMap) (r : Recorder) (key : LabelKeys) (ms : List Metric) (ts : Nat) : Option Recorder :=
  (vmRecordAll (r.loadOrNew kinds key ms) ms ts).map (fun vm' => AMap.set r key vm')

/-- value_recorder.go:44-54 `dump`. -/
def recDump (name : String) (r : Recorder) : Option (List Group) :=
  mapOpt (fun p => (vmGetAll p.2).map (fun ms => ⟨name, getLabels p.1, p.2.ts, ms⟩)) r

/-- default_aggregator.go:31-44 `Aggregate`. -/
def aggregate (kinds : KindMap) (st : State) (g : Group) (sels : List Selector) : Option State :=
  (record kinds ((AMap.get st g.name).getD []) (getLabelKeys sels g.labels) g.metrics g.ts).map (fun r' => AMap.set st g.name r')

/-- default_aggregator.go:46-58 `Dump`. -/
def dump (st : State) : Option (State × List Group) :=
  (mapOpt (fun p => recDump p.1 p.2) st).map (fun gs => (st.map (fun p => (p.1, [])), gs.flatten))

/-- default_aggregator.go:60-70 `DumpSingle`. -/
def dumpSingle (st : State) (name : String) : Option (State × List Group) :=
  match AMap.get st name with
  | none => some (st, [])
  | some r => (recDump name r).map (fun gs => (AMap.set st name [], gs))

def step (kinds : KindMap) (st : State) : Op → Option (State × List Group)
  | .aggregate g sels => (aggregate kinds st g sels).map (fun st' => (st', []))
  | .dump => dump st
  | .dumpSingle n => dumpSingle st n

/-- A history of the aggregator of the analyzers; `none` if some call panics. -/
def run (kinds : KindMap) : State → List Op → Option (State × List Group)
  | st, [] => some (st, [])
  | st, op :: ops =>
    match step kinds st op with
    | none => none
    | some (st', out) => (run kinds st' ops).map (fun p => (p.1, out ++ p.2))

/-- cumulative_aggregator.go:102-116 `calculateWithExpired`. -/
def evmCalculate (e : EVM) (m : Metric) (ts : Nat) (now : Int) : Option EVM :=
  match AMap.get e.vm.values m.name with
  | none => some e
  | some _ => (vmCalculate e.vm m ts).map (fun vm => { vm := vm, update := some now })

/-- cumulative_aggregator.go:34-36. -/
def evmRecordAll (e : EVM) : List Metric → Nat → Int → Option EVM
  | [], _, _ => some e
  | m :: ms, ts, now => match evmCalculate e m ts now with
    | none => none
    | some e' => evmRecordAll e' ms ts now

/-- cumulative_aggregator.go:25-37 `RecordWithDefaultSumKindAgg`. -/
def crecord (kinds : KindMap) (r : CRecorder) (key : LabelKeys) (ms : List Metric) (ts : Nat) (now : Int) : Option CRecorder :=
  (evmRecordAll (match AMap.get r key with | some e => e | none => newEVM kinds ms) ms ts now).map (fun e => AMap.set r key e)

/-- cumulative_aggregator.go:59-72 `AggregatorWithAllLabelsAndMetric`; `none` is a panic. -/
def caggregate (kinds : KindMap) (st : CState) (g : Group) (now : Int) : Option CState :=
  match getLabelsKeys g.labels with
  | .ok key => (crecord kinds ((AMap.get st g.name).getD []) key g.metrics g.ts now).map (fun r => AMap.set st g.name r)
  | _ => none

/-- value_recorder.go:44-54 `dump` on the embedded recorder. -/
def crecDump (name : String) (r : CRecorder) : Option (List Group) :=
  mapOpt (fun p => (vmGetAll p.2.vm).map (fun ms => ⟨name, getLabels p.1, p.2.vm.ts, ms⟩)) r

/-- cumulative_aggregator.go:74-87 `DumpAndRemoveExpired`. -/
def cdump (expiration : Int) (st : CState) (now : Int) : Option (CState × List Group) :=
  (mapOpt (fun p => crecDump p.1 p.2) st).map
    (fun gs => (st.map (fun p => (p.1, p.2.removeExpired (now - expiration))), gs.flatten))

def cstep (kinds : KindMap) (expiration : Int) (st : CState) : COp → Option (CState × List Group)
  | .record g now => (caggregate kinds st g now).map (fun s => (s, []))
  | .dump now => cdump expiration st now

/-- A history of the aggregator of the Prometheus exporter. -/
def crun (kinds : KindMap) (expiration : Int) : CState → List COp → Option (CState × List Group)
  | st, [] => some (st, [])
  | st, op :: ops => match cstep kinds expiration st op with
    | none => none
    | some (st', out) => (crun kinds expiration st' ops).map (fun p => (p.1, out ++ p.2))

/-! ## Specification -/

/-- A histogram whose numbers went through the machine. -/
def wrapHist (h : Hist) : Hist := { h with sum := i64 h.sum, count := u64 h.count, buckets := h.buckets.map u64 }

/-- An accumulator of the unbounded model as the machine has it. -/
def wrap : Acc → Acc
  | .sum v => .sum (i64 v)
  | .max v => .max v
  | .avg v c => .avg (i64 v) (i64 c)
  | .last v => .last v
  | .count v => .count (i64 v)
  | .hist h => .hist (wrapHist h)

/-- Two values that are the same in 64 bits. -/
def Same : MData → MData → Prop
  | .int v, .int w => i64 v = i64 w
  | .hist h, .hist k => h.bounds = k.bounds ∧ i64 h.sum = i64 k.sum ∧ u64 h.count = u64 k.count ∧ h.buckets.map u64 = k.buckets.map u64
  | .none, .none => True
  | _, _ => False

/-- The configuration gives an average under the name `o`. -/
def AvgOut (kinds : KindMap) (o : String) : Prop :=
  ∃ m cs, kinds m = some cs ∧ ∃ c ∈ cs, c.outputName = o ∧ c.kind = .avg

/-- The same metric, in 64 bits, unless it is an average. -/
def SameMetric (kinds : KindMap) (x y : Metric) : Prop := y.name = x.name ∧ (¬ AvgOut kinds x.name → Same x.data y.data)

/-- The same group. -/
def SameGroup (kinds : KindMap) (g h : Group) : Prop :=
  h.name = g.name ∧ h.labels = g.labels ∧ h.ts = g.ts ∧ All2 (SameMetric kinds) g.metrics h.metrics

/-- What a recorded value can add to any number of an accumulator, at most. -/
def weight : MData → Nat
  | .int v => v.natAbs + 1
  | .hist h => h.sum.natAbs + h.count + h.buckets.sum
  | .none => 0

def metricsWeight (ms : List Metric) : Nat := (ms.map (fun m => weight m.data)).sum

def opWeight : Op → Nat
  | .aggregate g _ => metricsWeight g.metrics
  | _ => 0

def copWeight : COp → Nat
  | .record g _ => metricsWeight g.metrics
  | _ => 0

/-- The weight of all that is recorded in a history. -/
def totalWeight (ops : List Op) : Nat := (ops.map opWeight).sum

def ctotalWeight (ops : List COp) : Nat := (ops.map copWeight).sum

/-! ## Numbers: lemmas -/

theorem i64_add_left (a b : Int) : i64 (i64 a + b) = i64 (a + b) := Int.bmod_add_bmod ..
theorem i64_add_right (a b : Int) : i64 (a + i64 b) = i64 (a + b) := Int.add_bmod_bmod ..
theorem i64_i64 (a : Int) : i64 (i64 a) = i64 a := Int.bmod_bmod ..

theorem i64_congr {a b c d : Int} (h : i64 a = i64 b) (h' : i64 c = i64 d) : i64 (a + c) = i64 (b + d) := by
  rw [← i64_add_left, h, i64_add_left, ← i64_add_right, h', i64_add_right]

theorem i64_range (x : Int) : -2 ^ 63 ≤ i64 x ∧ i64 x < 2 ^ 63 := by
  unfold i64; rw [Int.bmod_def]; omega

/-- C115: what the wrapping is: the difference is a multiple of 2^64. -/
theorem i64_spec (x : Int) : ∃ k : Int, i64 x = x + k * 2 ^ 64 := by
  unfold i64
  rw [Int.bmod_def]
  have := Int.emod_add_mul_ediv x 18446744073709551616
  split
  · exact ⟨-(x / 18446744073709551616), by omega⟩
  · exact ⟨-(x / 18446744073709551616) - 1, by omega⟩

theorem i64_id {x : Int} (h : x.natAbs < 2 ^ 63) : i64 x = x := by
  unfold i64; rw [Int.bmod_def]; omega

theorem u64_add_left (a b : Nat) : u64 (u64 a + b) = u64 (a + b) := by unfold u64; omega
theorem u64_u64 (a : Nat) : u64 (u64 a) = u64 a := by unfold u64; omega
theorem u64_id {n : Nat} (h : n < 2 ^ 64) : u64 n = n := by unfold u64; omega

/-! ## The machine's state is the unbounded one modulo 2^64 -/

theorem bumpBuckets_wrap (v : Int) (bs : List Int) (cs : List Nat) :
    bumpBuckets v bs (cs.map u64) = (Agg.bumpBuckets v bs cs).map u64 := by
  induction bs generalizing cs with
  | nil => cases cs <;> simp [bumpBuckets, Agg.bumpBuckets]
  | cons b r ih =>
    cases cs with
    | nil => simp [bumpBuckets, Agg.bumpBuckets]
    | cons c cs =>
      simp only [bumpBuckets, Agg.bumpBuckets, List.map_cons, ih, List.cons.injEq, and_true]
      split
      · exact u64_add_left c 1
      · rfl

theorem addBuckets_wrap (cs ds : List Nat) : addBuckets (cs.map u64) ds = (Agg.addBuckets cs ds).map (·.map u64) := by
  induction cs generalizing ds with
  | nil => cases ds <;> simp [addBuckets, Agg.addBuckets]
  | cons c cs ih =>
    cases ds with
    | nil => simp [addBuckets, Agg.addBuckets]
    | cons d ds =>
      simp only [addBuckets, Agg.addBuckets, List.map_cons, ih, u64_add_left]
      cases Agg.addBuckets cs ds <;> simp

theorem apply_wrap (a : Acc) (d : MData) : apply (wrap a) d = (a.apply d).map wrap := by
  cases d with
  | none => rfl
  | int v =>
    cases a <;> simp [apply, Acc.apply, wrap, wrapHist, calculate, Acc.calculate, i64_add_left, u64_add_left, bumpBuckets_wrap]
  | hist h =>
    cases a with
    | hist s =>
      simp only [apply, Acc.apply, wrap, wrapHist, merge, Acc.merge, addBuckets_wrap]
      by_cases hb : s.bounds.length = h.bounds.length
      · cases Agg.addBuckets s.buckets h.buckets <;> simp [hb, i64_add_left, u64_add_left, wrap, wrapHist]
      · simp [hb, wrap, wrapHist]
    | _ => simp [apply, Acc.apply, wrap, merge, Acc.merge, i64_add_left, i64_add_right]

def wrapVal (v : AggVal) : AggVal := ⟨v.name, wrap v.acc⟩

/-- A map with every value changed. -/
def mapv {κ α β : Type} (f : α → β) (m : AMap κ α) : AMap κ β := m.map (fun p => (p.1, f p.2))

theorem mapv_set {κ α β : Type} [DecidableEq κ] (f : α → β) (m : AMap κ α) (k : κ) (v : α) :
    AMap.set (mapv f m) k (f v) = mapv f (AMap.set m k v) := by
  induction m with
  | nil => rfl
  | cons p r ih =>
    unfold mapv at *
    simp only [List.map_cons, AMap.set]
    split <;> simp [ih]

theorem mapv_get {κ α β : Type} [DecidableEq κ] (f : α → β) (m : AMap κ α) (k : κ) :
    AMap.get (mapv f m) k = (AMap.get m k).map f := get_mapv m f k

theorem mapOpt_comm {α β γ δ : Type} {f : α → Option β} {g : γ → Option δ} {w : α → γ} {w' : β → δ}
    (h : ∀ x, g (w x) = (f x).map w') (l : List α) : mapOpt g (l.map w) = (mapOpt f l).map (·.map w') := by
  induction l with
  | nil => rfl
  | cons x r ih =>
    simp only [List.map_cons, mapOpt, h, ih]
    cases f x with
    | none => rfl
    | some y => cases mapOpt f r <;> rfl

def wrapVm (vm : ValuesMap) : ValuesMap := { vm with values := mapv (·.map wrapVal) vm.values }

theorem applyVal_wrap (v : AggVal) (d : MData) : applyVal (wrapVal v) d = (v.apply d).map wrapVal := by
  simp only [applyVal, wrapVal, AggVal.apply, apply_wrap]
  cases v.acc.apply d <;> rfl

theorem vmCalculate_wrap (vm : ValuesMap) (m : Metric) (ts : Nat) : vmCalculate (wrapVm vm) m ts = (vm.calculate m ts).map wrapVm := by
  unfold vmCalculate ValuesMap.calculate
  have : AMap.get (wrapVm vm).values m.name = (AMap.get vm.values m.name).map (·.map wrapVal) := mapv_get _ _ _
  rw [this]
  cases AMap.get vm.values m.name with
  | none => rfl
  | some vs =>
    simp only [Option.map_some]
    rw [mapOpt_comm (f := fun v => AggVal.apply v m.data) (w' := wrapVal) (fun v => applyVal_wrap v m.data)]
    cases mapOpt (fun v => AggVal.apply v m.data) vs with
    | none => rfl
    | some vs' =>
      simp only [Option.map_some, wrapVm, Option.some.injEq, ValuesMap.mk.injEq, and_true]
      exact mapv_set _ _ _ _

theorem vmRecordAll_wrap (vm : ValuesMap) (ms : List Metric) (ts : Nat) :
    vmRecordAll (wrapVm vm) ms ts = (vm.recordAll ms ts).map wrapVm := by
  induction ms generalizing vm with
  | nil => rfl
  | cons m ms ih =>
    simp only [vmRecordAll, ValuesMap.recordAll, vmCalculate_wrap]
    cases vm.calculate m ts with
    | none => rfl
    | some vm' => exact ih vm'

theorem wrap_init (c : KindConfig) : wrapVal (newAggValue c) = newAggValue c := by
  have h0 : i64 0 = 0 := rfl
  have h1 : u64 0 = 0 := rfl
  cases h : c.kind <;> simp [wrapVal, newAggValue, Acc.init, h, wrap, wrapHist, h0, h1]

theorem wrap_new (kinds : KindMap) (ms : List Metric) : wrapVm (newAggValuesMap kinds ms) = newAggValuesMap kinds ms := by
  have key : ∀ (ms : List Metric) (acc : AMap String (List AggVal)), mapv (·.map wrapVal) acc = acc →
      mapv (·.map wrapVal) (ms.foldl (fun acc m => match kinds m.name with
        | none => acc
        | some cs => AMap.set acc m.name (cs.map newAggValue)) acc) =
      ms.foldl (fun acc m => match kinds m.name with
        | none => acc
        | some cs => AMap.set acc m.name (cs.map newAggValue)) acc := by
    intro ms
    induction ms with
    | nil => exact fun acc h => h
    | cons m ms ih =>
      intro acc h
      simp only [List.foldl_cons]
      apply ih
      cases kinds m.name with
      | none => exact h
      | some cs =>
        have e : cs.map newAggValue = (cs.map newAggValue).map wrapVal := by
          simp [Function.comp_def, wrap_init]
        simp only
        rw [← mapv_set, h]
        rw [← e]
  simp only [wrapVm, newAggValuesMap, ValuesMap.mk.injEq, and_true]
  exact key ms [] rfl

def wrapRec (r : Recorder) : Recorder := mapv wrapVm r

def wrapSt (st : State) : State := mapv wrapRec st

theorem record_wrap (kinds : KindMap) (r : Recorder) (key : LabelKeys) (ms : List Metric) (ts : Nat) :
    record kinds (wrapRec r) key ms ts = (r.record kinds key ms ts).map wrapRec := by
  have : Recorder.loadOrNew kinds (wrapRec r) key ms = wrapVm (r.loadOrNew kinds key ms) := by
    unfold Recorder.loadOrNew
    rw [wrapRec, mapv_get]
    cases AMap.get r key with
    | none => exact (wrap_new kinds ms).symm
    | some vm => rfl
  unfold record Recorder.record
  rw [this, vmRecordAll_wrap]
  cases (r.loadOrNew kinds key ms).recordAll ms ts with
  | none => rfl
  | some vm => simp only [Option.map_some, Option.some.injEq]; exact mapv_set _ _ _ _

theorem aggregate_wrap (kinds : KindMap) (st : State) (g : Group) (sels : List Selector) :
    aggregate kinds (wrapSt st) g sels = (Agg.aggregate kinds st g sels).map wrapSt := by
  have : (AMap.get (wrapSt st) g.name).getD [] = wrapRec ((AMap.get st g.name).getD []) := by
    rw [wrapSt, mapv_get]
    cases AMap.get st g.name <;> rfl
  unfold aggregate Agg.aggregate
  rw [this, record_wrap]
  simp only
  cases Recorder.record kinds ((AMap.get st g.name).getD []) (getLabelKeys sels g.labels) g.metrics g.ts with
  | none => rfl
  | some r => simp only [Option.map_some, Option.some.injEq]; exact mapv_set _ _ _ _

/-! ### Which accumulators are averages -/

def isAvg : Acc → Bool
  | .avg .. => true
  | _ => false

/-- Averages stand under names configured for averages. -/
def VmOk (kinds : KindMap) (vm : ValuesMap) : Prop := ∀ p ∈ vm.values, ∀ v ∈ p.2, isAvg v.acc = true → AvgOut kinds v.name

theorem isAvg_apply {a a' : Acc} {d : MData} (h : a.apply d = some a') : isAvg a' = isAvg a := by
  cases d with
  | none => simp [Acc.apply] at h; rw [h]
  | int v => cases a <;> (simp [Acc.apply, Acc.calculate] at h; subst h; rfl)
  | hist x =>
    cases a with
    | hist s =>
      simp only [Acc.apply, Acc.merge] at h
      split at h <;> rename_i h1
      · split at h1
        · simp at h1
        · split at h1 <;> simp at h1
          cases h; subst h1; rfl
      · cases h; rfl
      · cases h
    | _ => simp [Acc.apply, Acc.merge] at h; subst h; rfl

theorem mem_set {κ α : Type} [DecidableEq κ] {m : AMap κ α} {k : κ} {v : α} {p : κ × α} (h : p ∈ AMap.set m k v) :
    p = (k, v) ∨ p ∈ m := by
  induction m with
  | nil => simp [AMap.set] at h; exact .inl h
  | cons q r ih =>
    simp only [AMap.set] at h
    split at h
    · rename_i hq
      rcases List.mem_cons.1 h with h | h
      · exact .inl (by rw [h, hq])
      · exact .inr (by simp [h])
    · rcases List.mem_cons.1 h with h | h
      · exact .inr (by simp [h])
      · rcases ih h with h | h
        · exact .inl h
        · exact .inr (by simp [h])

/-- What holds of every accumulator of a series goes on to hold when a record keeps it. -/
theorem calculate_all {P Q : AggVal → Prop} {vm vm' : ValuesMap} {m : Metric} {ts : Nat} (h : vm.calculate m ts = some vm')
    (hP : ∀ p ∈ vm.values, ∀ v ∈ p.2, P v) (hPQ : ∀ v, P v → Q v) (hs : ∀ v v', P v → v.apply m.data = some v' → Q v') :
    ∀ p ∈ vm'.values, ∀ v ∈ p.2, Q v := by
  unfold ValuesMap.calculate at h
  split at h
  · cases h; exact fun p hp v hv => hPQ v (hP p hp v hv)
  · rename_i vs hvs
    split at h
    · cases h
    · rename_i vs' hvs'
      cases h
      intro p hp v hv
      rcases mem_set hp with rfl | hp
      · obtain ⟨x, hx, hxv⟩ := (mapOpt_all2 hvs').mem_right hv
        exact hs x v (hP _ (AMap.mem_of_get hvs) x hx) hxv
      · exact hPQ v (hP p hp v hv)

theorem new_all {P : AggVal → Prop} (kinds : KindMap) (ms : List Metric)
    (h : ∀ m cs, kinds m = some cs → ∀ c ∈ cs, P (newAggValue c)) : ∀ p ∈ (newAggValuesMap kinds ms).values, ∀ v ∈ p.2, P v := by
  have key : ∀ (ms : List Metric) (acc : AMap String (List AggVal)), (∀ p ∈ acc, ∀ v ∈ p.2, P v) →
      ∀ p ∈ ms.foldl (fun acc m => match kinds m.name with
        | none => acc
        | some cs => AMap.set acc m.name (cs.map newAggValue)) acc, ∀ v ∈ p.2, P v := by
    intro ms
    induction ms with
    | nil => exact fun acc h => h
    | cons m ms ih =>
      intro acc ha
      simp only [List.foldl_cons]
      apply ih
      split
      · exact ha
      · rename_i cs hcs
        intro p hp v hv
        rcases mem_set hp with rfl | hp
        · obtain ⟨c, hc, rfl⟩ := List.mem_map.1 hv
          exact h _ cs hcs c hc
        · exact ha p hp v hv
  exact key ms [] (by simp)

theorem new_ok (kinds : KindMap) (ms : List Metric) : VmOk kinds (newAggValuesMap kinds ms) := by
  apply new_all
  intro m cs hm c hc hv
  refine ⟨m, cs, hm, c, hc, rfl, ?_⟩
  cases hk : c.kind <;> simp [newAggValue, Acc.init, hk, isAvg] at hv ⊢

theorem calculate_ok {kinds : KindMap} {vm vm' : ValuesMap} {m : Metric} {ts : Nat} (ho : VmOk kinds vm)
    (h : vm.calculate m ts = some vm') : VmOk kinds vm' := by
  refine calculate_all h ho (fun _ h => h) ?_
  intro v v' hv ha
  simp only [AggVal.apply, Option.map_eq_some_iff] at ha
  obtain ⟨a, ha, rfl⟩ := ha
  intro h1
  exact hv (by rw [← isAvg_apply ha]; exact h1)

theorem recordAll_ok {kinds : KindMap} {vm vm' : ValuesMap} {ms : List Metric} {ts : Nat} (ho : VmOk kinds vm)
    (h : vm.recordAll ms ts = some vm') : VmOk kinds vm' := by
  induction ms generalizing vm with
  | nil => cases h; exact ho
  | cons m ms ih =>
    simp only [ValuesMap.recordAll] at h
    split at h
    · cases h
    · rename_i vm1 h1
      exact ih (calculate_ok ho h1) h

/-! ### What is dumped -/

theorem same_refl (d : MData) : Same d d := by cases d <;> simp [Same]

theorem get_wrap {a : Acc} {d' : MData} (h : get (wrap a) = some d') :
    ∃ d, a.get = some d ∧ (isAvg a = false → Same d d') := by
  cases a with
  | avg v c =>
    simp only [wrap, get] at h
    split at h
    · cases h
    · rename_i hc
      have : c ≠ 0 := by rintro rfl; exact hc rfl
      exact ⟨.int (v.tdiv c), by simp [Acc.get, this], by simp [isAvg]⟩
  | sum v => simp only [wrap, get] at h; cases h; exact ⟨_, rfl, fun _ => (i64_i64 v).symm⟩
  | count v => simp only [wrap, get] at h; cases h; exact ⟨_, rfl, fun _ => (i64_i64 v).symm⟩
  | max v => simp only [wrap, get] at h; cases h; exact ⟨_, rfl, fun _ => rfl⟩
  | last v => simp only [wrap, get] at h; cases h; exact ⟨_, rfl, fun _ => rfl⟩
  | hist x =>
    simp only [wrap, get] at h; cases h
    refine ⟨_, rfl, fun _ => ⟨rfl, (i64_i64 _).symm, (u64_u64 _).symm, ?_⟩⟩
    simp [wrapHist, Function.comp_def, u64_u64]

theorem mapOpt_back {α β γ δ : Type} {f : α → Option β} {g : γ → Option δ} {w : α → γ} {R : β → δ → Prop} {l : List α}
    (h : ∀ x ∈ l, ∀ y', g (w x) = some y' → ∃ y, f x = some y ∧ R y y') {ys' : List δ} (hm : mapOpt g (l.map w) = some ys') :
    ∃ ys, mapOpt f l = some ys ∧ All2 R ys ys' := by
  induction l generalizing ys' with
  | nil => cases hm; exact ⟨[], rfl, .nil⟩
  | cons x r ih =>
    simp only [List.map_cons, mapOpt] at hm
    split at hm
    · cases hm
    · rename_i y' hy'
      split at hm
      · cases hm
      · rename_i zs hzs
        cases hm
        obtain ⟨y, hy, hr⟩ := h x (by simp) y' hy'
        obtain ⟨ys, h1, h2⟩ := ih (fun z hz => h z (by simp [hz])) hzs
        exact ⟨y :: ys, by simp [mapOpt, hy, h1], .cons hr h2⟩

theorem all2_flatten {α β : Type} {R : α → β → Prop} {l : List (List α)} {l' : List (List β)} (h : All2 (All2 R) l l') :
    All2 R l.flatten l'.flatten := by
  induction h with
  | nil => exact .nil
  | cons h _ ih => simp only [List.flatten_cons]; exact h.append ih

theorem vmGetAll_wrap {kinds : KindMap} {vm : ValuesMap} (ho : VmOk kinds vm) {ms' : List Metric}
    (h : vmGetAll (wrapVm vm) = some ms') : ∃ ms, vm.getAll = some ms ∧ All2 (SameMetric kinds) ms ms' := by
  simp only [vmGetAll, Option.map_eq_some_iff] at h
  obtain ⟨l', h1, rfl⟩ := h
  have : (wrapVm vm).values = vm.values.map (fun p => (p.1, p.2.map wrapVal)) := rfl
  rw [this] at h1
  obtain ⟨l, h2, h3⟩ := mapOpt_back (f := fun p => mapOpt AggVal.get p.2) (R := All2 (SameMetric kinds)) (by
    intro p hp y' hy'
    refine mapOpt_back ?_ hy'
    intro v hv z' hz'
    simp only [getVal, wrapVal, Option.map_eq_some_iff] at hz'
    obtain ⟨d', hd', rfl⟩ := hz'
    obtain ⟨d, hd, hs⟩ := get_wrap hd'
    refine ⟨⟨v.name, d⟩, by simp [AggVal.get, hd], rfl, fun hn => hs ?_⟩
    cases hb : isAvg v.acc with
    | false => rfl
    | true => exact absurd (ho p hp v hv hb) hn) h1
  exact ⟨l.flatten, by simp [ValuesMap.getAll, h2], all2_flatten h3⟩

def StOk (kinds : KindMap) (st : State) : Prop := ∀ p ∈ st, ∀ q ∈ p.2, VmOk kinds q.2

theorem recDump_wrap {kinds : KindMap} {n : String} {r : Recorder} (ho : ∀ q ∈ r, VmOk kinds q.2) {gs' : List Group}
    (h : recDump n (wrapRec r) = some gs') : ∃ gs, r.dump n = some gs ∧ All2 (SameGroup kinds) gs gs' := by
  refine mapOpt_back ?_ h
  intro q hq g' hg'
  simp only [Option.map_eq_some_iff] at hg'
  obtain ⟨ms', h1, rfl⟩ := hg'
  obtain ⟨ms, h2, h3⟩ := vmGetAll_wrap (ho q hq) h1
  exact ⟨⟨n, getLabels q.1, q.2.ts, ms⟩, by simp [h2], rfl, rfl, rfl, h3⟩

theorem aggregate_ok {kinds : KindMap} {st st' : State} {g : Group} {sels : List Selector} (ho : StOk kinds st)
    (h : Agg.aggregate kinds st g sels = some st') : StOk kinds st' := by
  simp only [Agg.aggregate, Recorder.record, Option.map_map, Option.map_eq_some_iff, Function.comp] at h
  obtain ⟨vm, h1, rfl⟩ := h
  have hr : ∀ q ∈ (AMap.get st g.name).getD [], VmOk kinds q.2 := by
    cases hg : AMap.get st g.name with
    | none => simp
    | some r => exact ho _ (AMap.mem_of_get hg)
  intro p hp
  rcases mem_set hp with rfl | hp
  · intro q hq
    rcases mem_set hq with rfl | hq
    · refine recordAll_ok ?_ h1
      unfold Recorder.loadOrNew
      split
      · rename_i vm0 h0
        exact hr _ (AMap.mem_of_get h0)
      · exact new_ok kinds _
    · exact hr q hq
  · exact ho p hp

theorem step_back {kinds : KindMap} {st : State} {op : Op} (ho : StOk kinds st) {st1 : State} {out' : List Group}
    (h : step kinds (wrapSt st) op = some (st1, out')) :
    ∃ st' out, Agg.step kinds st op = some (st', out) ∧ st1 = wrapSt st' ∧ All2 (SameGroup kinds) out out' ∧ StOk kinds st' := by
  cases op with
  | aggregate g sels =>
    simp only [step, aggregate_wrap, Option.map_map, Option.map_eq_some_iff, Function.comp, Prod.mk.injEq] at h
    obtain ⟨s, h1, rfl, rfl⟩ := h
    exact ⟨s, [], by simp [Agg.step, h1], rfl, .nil, aggregate_ok ho h1⟩
  | dump =>
    simp only [step, dump, Option.map_eq_some_iff, Prod.mk.injEq] at h
    obtain ⟨gs', h1, rfl, rfl⟩ := h
    have e : wrapSt st = st.map (fun p => (p.1, wrapRec p.2)) := rfl
    rw [e] at h1
    obtain ⟨gs, h2, h3⟩ := mapOpt_back (f := fun p => Recorder.dump p.1 p.2) (R := All2 (SameGroup kinds))
      (w := fun p : String × Recorder => (p.1, wrapRec p.2)) (fun p hp y' hy' => recDump_wrap (ho p hp) hy') h1
    refine ⟨st.map (fun p => (p.1, [])), gs.flatten, by simp [Agg.step, Agg.dump, h2], ?_, all2_flatten h3, ?_⟩
    · simp [wrapSt, mapv, wrapRec, Function.comp_def]
    · intro p hp
      obtain ⟨q, _, rfl⟩ := List.mem_map.1 hp
      simp
  | dumpSingle n =>
    simp only [step, dumpSingle] at h
    have e : AMap.get (wrapSt st) n = (AMap.get st n).map wrapRec := mapv_get _ _ _
    rw [e] at h
    cases hg : AMap.get st n with
    | none =>
      rw [hg] at h
      cases h
      exact ⟨st, [], by simp [Agg.step, Agg.dumpSingle, hg], rfl, .nil, ho⟩
    | some r =>
      rw [hg] at h
      simp only [Option.map_some, Option.map_eq_some_iff, Prod.mk.injEq] at h
      obtain ⟨gs', h1, rfl, rfl⟩ := h
      obtain ⟨gs, h2, h3⟩ := recDump_wrap (ho _ (AMap.mem_of_get hg)) h1
      refine ⟨AMap.set st n [], gs, by simp [Agg.step, Agg.dumpSingle, hg, h2], ?_, h3, ?_⟩
      · exact mapv_set wrapRec st n []
      · intro p hp
        rcases mem_set hp with rfl | hp
        · simp
        · exact ho p hp

theorem run_back {kinds : KindMap} (ops : List Op) {st : State} (ho : StOk kinds st) {st1 : State} {out' : List Group}
    (h : run kinds (wrapSt st) ops = some (st1, out')) :
    ∃ st' out, Agg.run kinds st ops = some (st', out) ∧ st1 = wrapSt st' ∧ All2 (SameGroup kinds) out out' := by
  induction ops generalizing st st1 out' with
  | nil => cases h; exact ⟨st, [], rfl, rfl, .nil⟩
  | cons op ops ih =>
    simp only [run] at h
    split at h
    · cases h
    · rename_i s o hs
      simp only [Option.map_eq_some_iff, Prod.mk.injEq] at h
      obtain ⟨⟨s2, o2⟩, h1, rfl, rfl⟩ := h
      obtain ⟨s', o', h2, rfl, h3, h4⟩ := step_back ho hs
      obtain ⟨s3, o3, h5, h6, h7⟩ := ih h4 h1
      exact ⟨s3, o' ++ o3, by simp [Agg.run, h2, h5], h6, h3.append h7⟩

/-- C115: whatever is recorded and dumped, if the machine does not panic then neither does the unbounded model; the machine's
accumulators are those of the model modulo 2^64, and it has dumped the same groups with the same values modulo 2^64, the averages
excepted. -/
theorem machine_refines {kinds : KindMap} (ops : List Op) {st1 : State} {out' : List Group}
    (h : run kinds [] ops = some (st1, out')) :
    ∃ st out, Agg.run kinds [] ops = some (st, out) ∧ st1 = wrapSt st ∧ All2 (SameGroup kinds) out out' :=
  run_back ops (by simp [StOk]) h

/-! ### Totals -/

theorem observedTotal_same {kinds : KindMap} (n : String) {o : String} (ho : ¬ AvgOut kinds o) {gs hs : List Group}
    (h : All2 (SameGroup kinds) gs hs) : i64 (observedTotal n o hs) = i64 (observedTotal n o gs) := by
  induction h with
  | nil => rfl
  | @cons a b as bs hg _ ih =>
    obtain ⟨h1, _, _, h3⟩ := hg
    simp only [observedTotal, h1]
    have : i64 (metricsTotal (fun d => match d with | .int v => v | _ => 0) o b.metrics) =
        i64 (metricsTotal (fun d => match d with | .int v => v | _ => 0) o a.metrics) := by
      clear ih
      generalize a.metrics = x at h3
      generalize b.metrics = y at h3
      induction h3 with
      | nil => rfl
      | @cons u v us vs hx _ ih2 =>
        simp only [metricsTotal, hx.1]
        by_cases hv : u.name = o
        · rw [if_pos hv, if_pos hv]
          have hs := hx.2 (by rw [hv]; exact ho)
          have e : i64 (match v.data with | .int v => v | _ => 0) = i64 (match u.data with | .int v => v | _ => 0) := by
            revert hs
            cases u.data <;> cases v.data <;> simp [Same]
            exact fun h => h.symm
          exact i64_congr e ih2
        · rw [if_neg hv, if_neg hv, Int.zero_add, Int.zero_add]
          exact ih2
    split
    · exact i64_congr this ih
    · rw [Int.zero_add, Int.zero_add]; exact ih

theorem not_avg_of_output {kinds : KindMap} {m o : String} {k : Kind} (hc : OutputOf kinds m o k) (hk : k ≠ .avg) :
    ¬ AvgOut kinds o := by
  rintro ⟨m', cs, h1, c, h2, h3, h4⟩
  by_cases hm : m' = m
  · subst hm
    obtain ⟨cs', c', h5, h6, h7⟩ := hc.conf
    rw [h1] at h5
    cases h5
    have : c ∈ cs.filter (fun c => c.outputName = o) := List.mem_filter.2 ⟨h2, by simpa using h3⟩
    rw [h6, List.mem_singleton] at this
    subst this
    exact hk (h7.symm.trans h4)
  · exact hc.others m' cs hm h1 c h2 h3

/-- C115 / C01 (`sum`), in 64 bits: the values of a sum over all dumps add up to all that was recorded, modulo 2^64.
(Missing: records that lack the metric, as in `sum_conserved_partial`.) -/
theorem machine_sum_conserved_partial {kinds : KindMap} {name m o : String} (hc : OutputOf kinds m o .sum)
    (ops : List Op) (hm : ∀ g sels, Op.aggregate g sels ∈ ops → g.name = name → m ∈ g.metrics.map (·.name))
    {st : State} {out : List Group} (h : run kinds [] (ops ++ [.dump]) = some (st, out)) :
    ∃ k : Int, observedTotal name o out = recordedTotal sumContrib name m ops + k * 2 ^ 64 := by
  obtain ⟨s, out0, h1, _, h2⟩ := machine_refines _ h
  have e := sum_conserved_partial hc ops hm h1
  have e2 := observedTotal_same name (not_avg_of_output hc (by simp)) h2
  rw [e] at e2
  obtain ⟨a, ha⟩ := i64_spec (observedTotal name o out)
  obtain ⟨b, hb⟩ := i64_spec (recordedTotal sumContrib name m ops)
  exact ⟨b - a, by omega⟩

/-- C115 / C01 (`count`), in 64 bits (missing: the same). -/
theorem machine_count_conserved_partial {kinds : KindMap} {name m o : String} (hc : OutputOf kinds m o .count)
    (ops : List Op) (hm : ∀ g sels, Op.aggregate g sels ∈ ops → g.name = name → m ∈ g.metrics.map (·.name))
    {st : State} {out : List Group} (h : run kinds [] (ops ++ [.dump]) = some (st, out)) :
    ∃ k : Int, observedTotal name o out = recordedTotal countContrib name m ops + k * 2 ^ 64 := by
  obtain ⟨s, out0, h1, _, h2⟩ := machine_refines _ h
  have e := count_conserved_partial hc ops hm h1
  have e2 := observedTotal_same name (not_avg_of_output hc (by simp)) h2
  rw [e] at e2
  obtain ⟨a, ha⟩ := i64_spec (observedTotal name o out)
  obtain ⟨b, hb⟩ := i64_spec (recordedTotal countContrib name m ops)
  exact ⟨b - a, by omega⟩

/-! ## Nothing wraps below 2^63 -/

/-- Every number of the accumulator that is added to is at most `B`. -/
def Small (B : Nat) : Acc → Prop
  | .sum v => v.natAbs ≤ B
  | .avg v c => v.natAbs ≤ B ∧ c.natAbs ≤ B
  | .count v => v.natAbs ≤ B
  | .hist h => h.sum.natAbs ≤ B ∧ h.count ≤ B ∧ ∀ b ∈ h.buckets, b ≤ B
  | .max _ => True
  | .last _ => True

theorem Small.mono {B C : Nat} (hBC : B ≤ C) {a : Acc} (h : Small B a) : Small C a := by
  cases a with
  | hist x => exact ⟨Nat.le_trans h.1 hBC, Nat.le_trans h.2.1 hBC, fun b hb => Nat.le_trans (h.2.2 b hb) hBC⟩
  | avg v c => exact ⟨Nat.le_trans h.1 hBC, Nat.le_trans h.2 hBC⟩
  | sum v => exact Nat.le_trans h hBC
  | count v => exact Nat.le_trans h hBC
  | max v => trivial
  | last v => trivial

theorem bump_small {B : Nat} (v : Int) (bs : List Int) (cs : List Nat) (h : ∀ c ∈ cs, c ≤ B) :
    ∀ c ∈ Agg.bumpBuckets v bs cs, c ≤ B + 1 := by
  induction bs generalizing cs with
  | nil =>
    intro c hc
    have : c ∈ cs := by simpa [Agg.bumpBuckets] using hc
    exact Nat.le_succ_of_le (h c this)
  | cons b r ih =>
    cases cs with
    | nil => simp [Agg.bumpBuckets]
    | cons c cs =>
      intro x hx
      simp only [Agg.bumpBuckets, List.mem_cons] at hx
      rcases hx with rfl | hx
      · have := h c (by simp)
        split <;> omega
      · exact ih cs (fun y hy => h y (by simp [hy])) x hx

theorem addBuckets_small {B W : Nat} (cs ds : List Nat) (h : ∀ c ∈ cs, c ≤ B) (hd : ds.sum ≤ W) {r : List Nat}
    (hr : Agg.addBuckets cs ds = some r) : ∀ c ∈ r, c ≤ B + W := by
  induction cs generalizing ds r with
  | nil => cases ds <;> simp [Agg.addBuckets] at hr; subst hr; simp
  | cons c cs ih =>
    cases ds with
    | nil =>
      simp [Agg.addBuckets] at hr
      subst hr
      exact fun x hx => Nat.le_trans (h x hx) (Nat.le_add_right _ _)
    | cons d ds =>
      simp only [Agg.addBuckets, Option.map_eq_some_iff] at hr
      obtain ⟨r', h1, rfl⟩ := hr
      simp only [List.sum_cons] at hd
      intro x hx
      rcases List.mem_cons.1 hx with rfl | hx
      · have := h c (by simp); omega
      · exact ih ds (fun y hy => h y (by simp [hy])) (by omega) h1 x hx

theorem small_apply {B : Nat} {a a' : Acc} {d : MData} (h : Small B a) (ha : a.apply d = some a') : Small (B + weight d) a' := by
  cases d with
  | none => simp [Acc.apply] at ha; subst ha; exact h
  | int v =>
    simp only [weight]
    cases a with
    | hist x =>
      simp only [Acc.apply, Acc.calculate, Option.some.injEq] at ha
      subst ha
      obtain ⟨h1, h2, h3⟩ := h
      refine ⟨by simp only; omega, by simp only; omega, fun b hb => ?_⟩
      have := bump_small v _ _ h3 b hb
      omega
    | sum x => simp only [Acc.apply, Acc.calculate, Option.some.injEq] at ha; subst ha; simp only [Small] at h ⊢; omega
    | count x => simp only [Acc.apply, Acc.calculate, Option.some.injEq] at ha; subst ha; simp only [Small] at h ⊢; omega
    | avg x c => simp only [Acc.apply, Acc.calculate, Option.some.injEq] at ha; subst ha; simp only [Small] at h ⊢; omega
    | max x => simp only [Acc.apply, Acc.calculate, Option.some.injEq] at ha; subst ha; trivial
    | last x => simp only [Acc.apply, Acc.calculate, Option.some.injEq] at ha; subst ha; trivial
  | hist x =>
    simp only [weight]
    cases a with
    | hist s =>
      simp only [Acc.apply, Acc.merge] at ha
      split at ha <;> rename_i h1
      · split at h1
        · simp at h1
        · split at h1
          · simp at h1
          · rename_i r hr
            simp only [Res.ok.injEq] at h1
            cases ha; subst h1
            obtain ⟨a1, a2, a3⟩ := h
            refine ⟨by simp only; omega, by simp only; omega, fun b hb => ?_⟩
            have := addBuckets_small _ _ a3 (Nat.le_refl x.buckets.sum) hr b hb
            omega
      · cases ha; exact Small.mono (by omega) h
      · cases ha
    | sum y => simp only [Acc.apply, Acc.merge, Option.some.injEq] at ha; subst ha; simp only [Small] at h ⊢; omega
    | count y => simp only [Acc.apply, Acc.merge, Option.some.injEq] at ha; subst ha; simp only [Small] at h ⊢; omega
    | avg y c => simp only [Acc.apply, Acc.merge, Option.some.injEq] at ha; subst ha; simp only [Small] at h ⊢; omega
    | max y => simp only [Acc.apply, Acc.merge, Option.some.injEq] at ha; subst ha; trivial
    | last y => simp only [Acc.apply, Acc.merge, Option.some.injEq] at ha; subst ha; trivial

theorem wrap_small {B : Nat} (hB : B < 2 ^ 63) {a : Acc} (h : Small B a) : wrap a = a := by
  cases a with
  | hist x =>
    obtain ⟨h1, h2, h3⟩ := h
    have e : x.buckets.map u64 = x.buckets := by
      conv => rhs; rw [← List.map_id x.buckets]
      exact List.map_congr_left (fun b hb => u64_id (by have := h3 b hb; omega))
    simp [wrap, wrapHist, e, i64_id (show x.sum.natAbs < 2 ^ 63 by omega), u64_id (show x.count < 2 ^ 64 by omega)]
  | sum v => simp only [Small] at h; simp [wrap, i64_id (show v.natAbs < 2 ^ 63 by omega)]
  | count v => simp only [Small] at h; simp [wrap, i64_id (show v.natAbs < 2 ^ 63 by omega)]
  | avg v c =>
    simp only [Small] at h
    simp [wrap, i64_id (show v.natAbs < 2 ^ 63 by omega), i64_id (show c.natAbs < 2 ^ 63 by omega)]
  | max v => rfl
  | last v => rfl

theorem get_small {B : Nat} (hB : B < 2 ^ 63) {a : Acc} (h : Small B a) : get a = a.get := by
  cases a with
  | avg v c =>
    simp only [Small] at h
    simp only [get, Acc.get]
    split
    · rfl
    · have : (v.tdiv c).natAbs ≤ v.natAbs := by
        rw [Int.natAbs_tdiv]
        exact Nat.div_le_self _ _
      rw [i64_id (show (v.tdiv c).natAbs < 2 ^ 63 by omega)]
  | _ => rfl

def VmSmall (B : Nat) (vm : ValuesMap) : Prop := ∀ p ∈ vm.values, ∀ v ∈ p.2, Small B v.acc

theorem VmSmall.mono {B C : Nat} (hBC : B ≤ C) {vm : ValuesMap} (h : VmSmall B vm) : VmSmall C vm :=
  fun p hp v hv => (h p hp v hv).mono hBC

theorem small_calculate {B : Nat} {vm vm' : ValuesMap} {m : Metric} {ts : Nat} (h : VmSmall B vm)
    (hc : vm.calculate m ts = some vm') : VmSmall (B + weight m.data) vm' := by
  refine calculate_all hc h (fun v hv => hv.mono (Nat.le_add_right _ _)) ?_
  intro v v' hv ha
  simp only [AggVal.apply, Option.map_eq_some_iff] at ha
  obtain ⟨a, ha, rfl⟩ := ha
  exact small_apply hv ha

theorem small_recordAll {B : Nat} {vm vm' : ValuesMap} {ms : List Metric} {ts : Nat} (h : VmSmall B vm)
    (hc : vm.recordAll ms ts = some vm') : VmSmall (B + metricsWeight ms) vm' := by
  induction ms generalizing vm B with
  | nil => cases hc; exact h
  | cons m ms ih =>
    simp only [ValuesMap.recordAll] at hc
    split at hc
    · cases hc
    · rename_i vm1 h1
      have := ih (small_calculate h h1) hc
      have e : B + weight m.data + metricsWeight ms = B + metricsWeight (m :: ms) := by simp [metricsWeight]; omega
      rwa [e] at this

theorem small_new (B : Nat) (kinds : KindMap) (ms : List Metric) : VmSmall B (newAggValuesMap kinds ms) := by
  apply new_all
  intro m cs hm c hc
  cases hk : c.kind <;> simp [newAggValue, Acc.init, hk, Small]

theorem wrapVm_small {B : Nat} (hB : B < 2 ^ 63) {vm : ValuesMap} (h : VmSmall B vm) : wrapVm vm = vm := by
  have : mapv (·.map wrapVal) vm.values = vm.values := by
    unfold mapv
    conv => rhs; rw [← List.map_id vm.values]
    refine List.map_congr_left (fun p hp => ?_)
    have : p.2.map wrapVal = p.2 := by
      conv => rhs; rw [← List.map_id p.2]
      exact List.map_congr_left (fun v hv => by simp [wrapVal, wrap_small hB (h p hp v hv)])
    simp [this]
  simp [wrapVm, this]

theorem mapOpt_congr {α β : Type} {f g : α → Option β} {l : List α} (h : ∀ x ∈ l, f x = g x) : mapOpt f l = mapOpt g l := by
  induction l with
  | nil => rfl
  | cons x r ih => simp [mapOpt, h x (by simp), ih (fun y hy => h y (by simp [hy]))]

theorem vmGetAll_small {B : Nat} (hB : B < 2 ^ 63) {vm : ValuesMap} (h : VmSmall B vm) : vmGetAll vm = vm.getAll := by
  unfold vmGetAll ValuesMap.getAll
  rw [mapOpt_congr (g := fun p => mapOpt AggVal.get p.2)]
  intro p hp
  exact mapOpt_congr (fun v hv => by simp [getVal, AggVal.get, get_small hB (h p hp v hv)])

def StSmall (B : Nat) (st : State) : Prop := ∀ p ∈ st, ∀ q ∈ p.2, VmSmall B q.2

theorem mapv_id {κ α : Type} {f : α → α} {m : AMap κ α} (h : ∀ p ∈ m, f p.2 = p.2) : mapv f m = m := by
  unfold mapv
  conv => rhs; rw [← List.map_id m]
  exact List.map_congr_left (fun p hp => by simp [h p hp])

theorem wrapSt_small {B : Nat} (hB : B < 2 ^ 63) {st : State} (h : StSmall B st) : wrapSt st = st :=
  mapv_id (fun p hp => mapv_id (fun q hq => wrapVm_small hB (h p hp q hq)))

theorem small_aggregate {B : Nat} {kinds : KindMap} {st st' : State} {g : Group} {sels : List Selector} (ho : StSmall B st)
    (h : Agg.aggregate kinds st g sels = some st') : StSmall (B + metricsWeight g.metrics) st' := by
  simp only [Agg.aggregate, Recorder.record, Option.map_map, Option.map_eq_some_iff, Function.comp] at h
  obtain ⟨vm, h1, rfl⟩ := h
  have hr : ∀ q ∈ (AMap.get st g.name).getD [], VmSmall B q.2 := by
    cases hg : AMap.get st g.name with
    | none => simp
    | some r => exact ho _ (AMap.mem_of_get hg)
  intro p hp
  rcases mem_set hp with rfl | hp
  · intro q hq
    rcases mem_set hq with rfl | hq
    · refine small_recordAll ?_ h1
      unfold Recorder.loadOrNew
      split
      · rename_i vm0 h0
        exact hr _ (AMap.mem_of_get h0)
      · exact small_new B kinds _
    · exact (hr q hq).mono (Nat.le_add_right _ _)
  · exact fun q hq => (ho p hp q hq).mono (Nat.le_add_right _ _)

theorem recDump_small {B : Nat} (hB : B < 2 ^ 63) (n : String) {r : Recorder} (h : ∀ q ∈ r, VmSmall B q.2) : recDump n r = r.dump n :=
  mapOpt_congr (fun q hq => by rw [vmGetAll_small hB (h q hq)])

theorem run_small {kinds : KindMap} (ops : List Op) {B : Nat} {st : State} (h : StSmall B st) (hB : B + totalWeight ops < 2 ^ 63) :
    run kinds st ops = Agg.run kinds st ops := by
  induction ops generalizing B st with
  | nil => rfl
  | cons op ops ih =>
    have hs : step kinds st op = Agg.step kinds st op ∧
        ∀ st' out, Agg.step kinds st op = some (st', out) →
          StSmall (B + opWeight op) st' := by
      cases op with
      | aggregate g sels =>
        simp only [totalWeight, List.map_cons, List.sum_cons, opWeight] at hB
        have hB' : B < 2 ^ 63 := by omega
        refine ⟨?_, ?_⟩
        · simp only [step, Agg.step]
          conv => lhs; rw [← wrapSt_small hB' h]
          rw [aggregate_wrap]
          cases hg : Agg.aggregate kinds st g sels with
          | none => rfl
          | some s =>
            have := wrapSt_small (by omega) (small_aggregate h hg)
            simp [this]
        · intro st' out he
          simp only [Agg.step, Option.map_eq_some_iff, Prod.mk.injEq] at he
          obtain ⟨s, h1, rfl, _⟩ := he
          exact small_aggregate h h1
      | dump =>
        refine ⟨?_, ?_⟩
        · simp only [step, Agg.step, dump, Agg.dump]
          rw [mapOpt_congr (g := fun p => Recorder.dump p.1 p.2)]
          exact fun p hp => recDump_small (by omega) p.1 (h p hp)
        · intro st' out he
          simp only [Agg.step, Agg.dump, Option.map_eq_some_iff, Prod.mk.injEq] at he
          obtain ⟨_, _, rfl, _⟩ := he
          intro p hp
          obtain ⟨q, _, rfl⟩ := List.mem_map.1 hp
          simp
      | dumpSingle n =>
        refine ⟨?_, ?_⟩
        · simp only [step, Agg.step, dumpSingle, Agg.dumpSingle]
          cases hg : AMap.get st n with
          | none => rfl
          | some r => simp only [recDump_small (show B < 2 ^ 63 by omega) n (h _ (AMap.mem_of_get hg))]
        · intro st' out he
          simp only [Agg.step, Agg.dumpSingle] at he
          split at he
          · cases he; exact h
          · simp only [Option.map_eq_some_iff, Prod.mk.injEq] at he
            obtain ⟨_, _, rfl, _⟩ := he
            intro p hp
            rcases mem_set hp with rfl | hp
            · simp
            · exact h p hp
    simp only [run, Agg.run, hs.1]
    cases hg : Agg.step kinds st op with
    | none => rfl
    | some r =>
      obtain ⟨s, o⟩ := r
      simp only
      rw [ih (hs.2 s o hg)]
      simp only [totalWeight, List.map_cons, List.sum_cons] at hB ⊢
      omega

/-- C115: as long as all that is recorded weighs less than 2^63, the machine does exactly what the unbounded model does: the same
panics, the same states, the same dumps.  So all that is proved of that model holds of the machine. -/
theorem machine_exact (kinds : KindMap) (ops : List Op) (h : totalWeight ops < 2 ^ 63) : run kinds [] ops = Agg.run kinds [] ops :=
  run_small ops (B := 0) (by simp [StSmall]) (by omega)

/-! ## The cumulative aggregator -/

def wrapEvm (e : EVM) : EVM := { e with vm := wrapVm e.vm }

def wrapCRec (r : CRecorder) : CRecorder := mapv wrapEvm r

def wrapC (st : CState) : CState := mapv wrapCRec st

theorem evmCalculate_wrap (e : EVM) (m : Metric) (ts : Nat) (now : Int) :
    evmCalculate (wrapEvm e) m ts now = (e.calculate m ts now).map wrapEvm := by
  unfold evmCalculate EVM.calculate
  have : AMap.get (wrapEvm e).vm.values m.name = (AMap.get e.vm.values m.name).map (·.map wrapVal) := mapv_get _ _ _
  rw [this]
  cases AMap.get e.vm.values m.name with
  | none => rfl
  | some vs =>
    simp only [Option.map_some, wrapEvm, vmCalculate_wrap]
    cases e.vm.calculate m ts <;> rfl

theorem evmRecordAll_wrap (e : EVM) (ms : List Metric) (ts : Nat) (now : Int) :
    evmRecordAll (wrapEvm e) ms ts now = (e.recordAll ms ts now).map wrapEvm := by
  induction ms generalizing e with
  | nil => rfl
  | cons m ms ih =>
    simp only [evmRecordAll, EVM.recordAll, evmCalculate_wrap]
    cases e.calculate m ts now with
    | none => rfl
    | some e' => exact ih e'

theorem crecord_wrap (kinds : KindMap) (r : CRecorder) (key : LabelKeys) (ms : List Metric) (ts : Nat) (now : Int) :
    crecord kinds (wrapCRec r) key ms ts now = (r.record kinds key ms ts now).map wrapCRec := by
  have : (match AMap.get (wrapCRec r) key with | some e => e | none => newEVM kinds ms) =
      wrapEvm (match AMap.get r key with | some e => e | none => newEVM kinds ms) := by
    rw [wrapCRec, mapv_get]
    cases AMap.get r key with
    | none => simp [newEVM, wrapEvm, wrap_new]
    | some vm => rfl
  unfold crecord CRecorder.record
  rw [this, evmRecordAll_wrap]
  cases EVM.recordAll (match AMap.get r key with | some e => e | none => newEVM kinds ms) ms ts now with
  | none => rfl
  | some vm => simp only [Option.map_some, Option.some.injEq]; exact mapv_set _ _ _ _

theorem caggregate_wrap (kinds : KindMap) (st : CState) (g : Group) (now : Int) :
    caggregate kinds (wrapC st) g now = (Agg.caggregate kinds st g now).map wrapC := by
  have : (AMap.get (wrapC st) g.name).getD [] = wrapCRec ((AMap.get st g.name).getD []) := by
    rw [wrapC, mapv_get]
    cases AMap.get st g.name <;> rfl
  unfold caggregate Agg.caggregate
  cases getLabelsKeys g.labels with
  | ok key =>
    simp only
    rw [this, crecord_wrap]
    cases CRecorder.record kinds ((AMap.get st g.name).getD []) key g.metrics g.ts now with
    | none => rfl
    | some r => simp only [Option.map_some, Option.some.injEq]; exact mapv_set _ _ _ _
  | err => rfl
  | panic => rfl

/-- What holds of the series goes on to hold when a record keeps it. -/
theorem evmRecordAll_some {e e' : EVM} {ms : List Metric} {ts : Nat} {now : Int} (h : e.recordAll ms ts now = some e') :
    e.vm.recordAll ms ts = some e'.vm := by
  induction ms generalizing e with
  | nil => cases h; rfl
  | cons m ms ih =>
    simp only [EVM.recordAll] at h
    split at h
    · cases h
    · rename_i e1 h1
      have : e.vm.calculate m ts = some e1.vm := by
        unfold EVM.calculate at h1
        split at h1
        · rename_i hn
          cases h1
          simp [ValuesMap.calculate, hn]
        · simp only [Option.map_eq_some_iff] at h1
          obtain ⟨vm, h2, rfl⟩ := h1
          exact h2
      simp only [ValuesMap.recordAll, this]
      exact ih h

theorem caggregate_all {P Q : ValuesMap → Prop} {kinds : KindMap} {st st' : CState} {g : Group} {now : Int}
    (h : Agg.caggregate kinds st g now = some st') (hst : ∀ p ∈ st, ∀ q ∈ p.2, P q.2.vm) (hPQ : ∀ vm, P vm → Q vm)
    (hn : ∀ ms, P (newAggValuesMap (withDefault kinds) ms))
    (hs : ∀ vm vm', P vm → vm.recordAll g.metrics g.ts = some vm' → Q vm') : ∀ p ∈ st', ∀ q ∈ p.2, Q q.2.vm := by
  unfold Agg.caggregate at h
  split at h
  · rename_i key hk
    simp only [CRecorder.record, Option.map_map, Option.map_eq_some_iff, Function.comp] at h
    obtain ⟨e, h1, rfl⟩ := h
    have hr : ∀ q ∈ (AMap.get st g.name).getD [], P q.2.vm := by
      cases hg : AMap.get st g.name with
      | none => simp
      | some r => exact hst _ (AMap.mem_of_get hg)
    intro p hp
    rcases mem_set hp with rfl | hp
    · intro q hq
      rcases mem_set hq with rfl | hq
      · refine hs _ _ ?_ (evmRecordAll_some h1)
        split
        · rename_i e0 h0
          exact hr _ (AMap.mem_of_get h0)
        · exact hn _
      · exact hPQ _ (hr q hq)
    · exact fun q hq => hPQ _ (hst p hp q hq)
  · cases h

def CStOk (kinds : KindMap) (st : CState) : Prop := ∀ p ∈ st, ∀ q ∈ p.2, VmOk (withDefault kinds) q.2.vm

theorem crecDump_wrap {kinds : KindMap} {n : String} {r : CRecorder} (ho : ∀ q ∈ r, VmOk kinds q.2.vm) {gs' : List Group}
    (h : crecDump n (wrapCRec r) = some gs') : ∃ gs, r.dump n = some gs ∧ All2 (SameGroup kinds) gs gs' := by
  refine mapOpt_back ?_ h
  intro q hq g' hg'
  simp only [Option.map_eq_some_iff] at hg'
  obtain ⟨ms', h1, rfl⟩ := hg'
  obtain ⟨ms, h2, h3⟩ := vmGetAll_wrap (ho q hq) h1
  exact ⟨⟨n, getLabels q.1, q.2.vm.ts, ms⟩, by simp [h2], rfl, rfl, rfl, h3⟩

theorem removeExpired_wrap (r : CRecorder) (limit : Int) : (wrapCRec r).removeExpired limit = wrapCRec (r.removeExpired limit) := by
  unfold wrapCRec mapv CRecorder.removeExpired
  rw [List.filter_map]
  rfl

theorem cstep_back {kinds : KindMap} {ex : Int} {st : CState} {op : COp} (ho : CStOk kinds st) {st1 : CState} {out' : List Group}
    (h : cstep kinds ex (wrapC st) op = some (st1, out')) :
    ∃ st' out, Agg.cstep kinds ex st op = some (st', out) ∧ st1 = wrapC st' ∧ All2 (SameGroup (withDefault kinds)) out out' ∧
      CStOk kinds st' := by
  cases op with
  | record g now =>
    simp only [cstep, caggregate_wrap, Option.map_map, Option.map_eq_some_iff, Function.comp, Prod.mk.injEq] at h
    obtain ⟨s, h1, rfl, rfl⟩ := h
    exact ⟨s, [], by simp [Agg.cstep, h1], rfl, .nil,
      caggregate_all h1 ho (fun _ h => h) (new_ok _) (fun _ _ hv hr => recordAll_ok hv hr)⟩
  | dump now =>
    simp only [cstep, cdump, Option.map_eq_some_iff, Prod.mk.injEq] at h
    obtain ⟨gs', h1, rfl, rfl⟩ := h
    have e : wrapC st = st.map (fun p => (p.1, wrapCRec p.2)) := rfl
    rw [e] at h1
    obtain ⟨gs, h2, h3⟩ := mapOpt_back (f := fun p => CRecorder.dump p.1 p.2) (R := All2 (SameGroup (withDefault kinds)))
      (w := fun p : String × CRecorder => (p.1, wrapCRec p.2)) (fun p hp y' hy' => crecDump_wrap (ho p hp) hy') h1
    refine ⟨st.map (fun p => (p.1, p.2.removeExpired (now - ex))), gs.flatten, by simp only [Agg.cstep, Agg.cdump, h2, Option.map_some], ?_, all2_flatten h3, ?_⟩
    · simp [wrapC, mapv, Function.comp_def, removeExpired_wrap]
    · intro p hp q hq
      obtain ⟨x, hx, rfl⟩ := List.mem_map.1 hp
      exact ho x hx q (List.mem_filter.1 hq).1

theorem crun_back {kinds : KindMap} {ex : Int} (ops : List COp) {st : CState} (ho : CStOk kinds st) {st1 : CState} {out' : List Group}
    (h : crun kinds ex (wrapC st) ops = some (st1, out')) :
    ∃ st' out, Agg.crun kinds ex st ops = some (st', out) ∧ st1 = wrapC st' ∧ All2 (SameGroup (withDefault kinds)) out out' := by
  induction ops generalizing st st1 out' with
  | nil => cases h; exact ⟨st, [], rfl, rfl, .nil⟩
  | cons op ops ih =>
    simp only [crun] at h
    split at h
    · cases h
    · rename_i s o hs
      simp only [Option.map_eq_some_iff, Prod.mk.injEq] at h
      obtain ⟨⟨s2, o2⟩, h1, rfl, rfl⟩ := h
      obtain ⟨s', o', h2, rfl, h3, h4⟩ := cstep_back ho hs
      obtain ⟨s3, o3, h5, h6, h7⟩ := ih h4 h1
      exact ⟨s3, o' ++ o3, by simp [Agg.crun, h2, h5], h6, h3.append h7⟩

/-- C115: the same of the aggregator behind the Prometheus exporter, whose sums go on growing as long as the series lives. -/
theorem cumulative_refines {kinds : KindMap} {ex : Int} (ops : List COp) {st1 : CState} {out' : List Group}
    (h : crun kinds ex [] ops = some (st1, out')) :
    ∃ st out, Agg.crun kinds ex [] ops = some (st, out) ∧ st1 = wrapC st ∧ All2 (SameGroup (withDefault kinds)) out out' :=
  crun_back ops (by simp [CStOk]) h

def CStSmall (B : Nat) (st : CState) : Prop := ∀ p ∈ st, ∀ q ∈ p.2, VmSmall B q.2.vm

theorem wrapC_small {B : Nat} (hB : B < 2 ^ 63) {st : CState} (h : CStSmall B st) : wrapC st = st :=
  mapv_id (fun p hp => mapv_id (fun q hq => by simp [wrapEvm, wrapVm_small hB (h p hp q hq)]))

theorem cstep_small {kinds : KindMap} {ex : Int} (op : COp) {B : Nat} {st : CState} (h : CStSmall B st)
    (hB : B + copWeight op < 2 ^ 63) : cstep kinds ex st op = Agg.cstep kinds ex st op ∧
      ∀ st' out, Agg.cstep kinds ex st op = some (st', out) → CStSmall (B + copWeight op) st' := by
  cases op with
  | record g now =>
    simp only [copWeight] at hB
    have hsm : ∀ s, Agg.caggregate kinds st g now = some s → CStSmall (B + metricsWeight g.metrics) s := fun s hg =>
      caggregate_all (P := VmSmall B) hg h (fun _ hv => hv.mono (Nat.le_add_right _ _)) (small_new B _) (fun _ _ hv hr => small_recordAll hv hr)
    refine ⟨?_, ?_⟩
    · simp only [cstep, Agg.cstep]
      conv => lhs; rw [← wrapC_small (show B < 2 ^ 63 by omega) h]
      rw [caggregate_wrap]
      cases hg : Agg.caggregate kinds st g now with
      | none => rfl
      | some s =>
        have := wrapC_small (by omega) (hsm s hg)
        simp [this]
    · intro st' out he
      simp only [Agg.cstep, Option.map_eq_some_iff, Prod.mk.injEq] at he
      obtain ⟨s, h1, rfl, _⟩ := he
      exact hsm s h1
  | dump now =>
    refine ⟨?_, ?_⟩
    · simp only [cstep, Agg.cstep, cdump, Agg.cdump]
      rw [mapOpt_congr (g := fun p => CRecorder.dump p.1 p.2)]
      intro p hp
      exact mapOpt_congr (fun q hq => by rw [vmGetAll_small (show B < 2 ^ 63 by omega) (h p hp q hq)])
    · intro st' out he
      simp only [Agg.cstep, Agg.cdump, Option.map_eq_some_iff, Prod.mk.injEq] at he
      obtain ⟨_, _, rfl, _⟩ := he
      intro p hp q hq
      obtain ⟨x, hx, rfl⟩ := List.mem_map.1 hp
      exact h x hx q (List.mem_filter.1 hq).1

theorem crun_small {kinds : KindMap} {ex : Int} (ops : List COp) {B : Nat} {st : CState} (h : CStSmall B st)
    (hB : B + ctotalWeight ops < 2 ^ 63) : crun kinds ex st ops = Agg.crun kinds ex st ops := by
  induction ops generalizing B st with
  | nil => rfl
  | cons op ops ih =>
    simp only [ctotalWeight, List.map_cons, List.sum_cons] at hB
    have hs := cstep_small (kinds := kinds) (ex := ex) op h (by omega)
    simp only [crun, Agg.crun, hs.1]
    cases hg : Agg.cstep kinds ex st op with
    | none => rfl
    | some r =>
      obtain ⟨s, o⟩ := r
      simp only
      rw [ih (hs.2 s o hg)]
      simp only [ctotalWeight]
      omega

/-- C115: as long as all that was ever recorded weighs less than 2^63, the machine does exactly what the unbounded model does. -/
theorem cumulative_exact (kinds : KindMap) (ex : Int) (ops : List COp) (h : ctotalWeight ops < 2 ^ 63) :
    crun kinds ex [] ops = Agg.crun kinds ex [] ops :=
  crun_small ops (B := 0) (by simp [CStSmall]) (by omega)

/-! ## Beyond -/

/-- C115, what goes wrong beyond: a sum, and an average, of two positive values that do not fit together are negative. -/
theorem overflow_turns_negative (a b : Int) (ha : 0 < a) (ha' : a < 2 ^ 63) (hb : 0 < b) (hb' : b < 2 ^ 63) (h : 2 ^ 63 ≤ a + b) :
    (∃ v, (apply (.sum 0) (.int a)).bind (apply · (.int b)) = some (.sum v) ∧ v = a + b - 2 ^ 64 ∧ v < 0) ∧
    ∃ s d, (apply (.avg 0 0) (.int a)).bind (apply · (.int b)) = some s ∧ get s = some (.int d) ∧ d < 0 := by
  have e1 : i64 a = a := i64_id (by omega)
  have e2 : i64 (a + b) = a + b - 2 ^ 64 := by unfold i64; rw [Int.bmod_def]; omega
  have c1 : i64 1 = 1 := rfl
  have c2 : i64 2 = 2 := rfl
  refine ⟨⟨_, by simp [apply, calculate, e1, e2]; rfl, by simp, by omega⟩, ?_⟩
  refine ⟨.avg (a + b - 2 ^ 64) 2, _, by simp [apply, calculate, e1, e2, c1, c2], rfl, ?_⟩
  have h1 : (a + b - 2 ^ 64).tdiv 2 = -((2 ^ 64 - (a + b)) / 2) := by
    have : a + b - 2 ^ 64 = -(2 ^ 64 - (a + b)) := by omega
    rw [this, Int.neg_tdiv, Int.tdiv_eq_ediv_of_nonneg (by omega)]
  rw [h1, i64_id (by omega)]
  omega

/-! ## Examples -/

/-- A sum, an average and a histogram of one metric. -/
def three : KindMap := fun n => if n = "m" then some [⟨"m_sum", .sum, []⟩, ⟨"m_avg", .avg, []⟩, ⟨"m_hist", .histogram, [5]⟩] else none

def rec1 (v : Int) : Op := .aggregate ⟨"net", [("pod", .str [])], 7, [⟨"m", .int v⟩]⟩ [⟨"pod", .string⟩]

/-- The hypotheses of `machine_exact`, and a history that meets them and dumps. -/
example : totalWeight [rec1 3, .dump, rec1 (-5), rec1 8, .dump] < 2 ^ 63 ∧
    ((run three [] [rec1 3, .dump, rec1 (-5), rec1 8, .dump]).map (·.2.map (·.metrics)) =
      some [[⟨"m_sum", .int 3⟩, ⟨"m_avg", .int 3⟩, ⟨"m_hist", .hist ⟨3, 1, [5], [1]⟩⟩],
        [⟨"m_sum", .int 3⟩, ⟨"m_avg", .int 1⟩, ⟨"m_hist", .hist ⟨3, 2, [5], [1]⟩⟩]]) := by
  decide +kernel

/-- A history that wraps: the hypotheses of `machine_refines` and of `machine_sum_conserved_partial`. -/
example : OutputOf three "m" "m_sum" .sum ∧
    (run three [] [rec1 (2 ^ 62), rec1 (2 ^ 62), .dump]).map (·.2.map (·.metrics)) =
      some [[⟨"m_sum", .int (-2 ^ 63)⟩, ⟨"m_avg", .int (-2 ^ 62)⟩, ⟨"m_hist", .hist ⟨-2 ^ 63, 2, [5], [0]⟩⟩]] := by
  refine ⟨⟨⟨_, _, by simp [three]; rfl, by simp; rfl, rfl⟩, ?_⟩, by decide +kernel⟩
  intro m' cs hm h; simp [three, hm] at h

/-- The hypotheses of `overflow_turns_negative`. -/
example : (0 : Int) < 2 ^ 62 ∧ (2 : Int) ^ 62 < 2 ^ 63 ∧ (2 : Int) ^ 63 ≤ 2 ^ 62 + 2 ^ 62 := by decide

end Kindling.Agg.Machine
