import Verif.Dec
/-
Model of collector/pkg/aggregator and collector/pkg/aggregator/defaultaggregator.

Simplifications used throughout this file:
* int64/uint64 counters are unbounded `Int`/`Nat` (no overflow); `Verif.Agg.Machine` has them in 64 bits: C115;
* each of `Aggregate`, `Dump`, `DumpSingle` is one atomic step.  In the code `Dump` and
  `DumpSingle` hold the write lock; `Aggregate` holds the read lock and updates every
  accumulator with an atomic operation or under its mutex.  `Verif.Agg.Conc` has the single accesses of
  goroutines that interleave; that they can be taken for steps is C104.
-/
namespace Kindling.Agg
open Kindling

/-! ## Labels (collector/pkg/model/attribute_map.go) -/

/-- attribute_map.go:193-269 `AttributeValue` with its three implementations. -/
inductive AttrVal where
  | str (s : Bytes)
  | int (i : Int)
  | bool (b : Bool)
deriving DecidableEq, Repr

/-- attribute_map.go:16-18. -/
abbrev Labels := AMap String AttrVal

/-- attribute_map.go:71-77. -/
def Labels.getString (l : Labels) (k : String) : Bytes :=
  match AMap.get l k with
  | some (.str s) => s
  | _ => []
/-- attribute_map.go:93-99. -/
def Labels.getInt (l : Labels) (k : String) : Int :=
  match AMap.get l k with
  | some (.int i) => i
  | _ => 0
/-- attribute_map.go:115-121. -/
def Labels.getBool (l : Labels) (k : String) : Bool :=
  match AMap.get l k with
  | some (.bool b) => b
  | _ => false

/-! ## Label keys (collector/pkg/aggregator/label_key.go) -/

/-- label_key.go:10-16.  `unset` is the zero value "" of an unused array slot.  (Other strings
cannot be written outside the package: the type is unexported.) -/
inductive VType where
  | unset | boolean | string | int
deriving DecidableEq, Repr

/-- label_key.go:22-25. -/
structure Selector where
  name : String
  vtype : VType
deriving DecidableEq, Repr

/-- label_key.go:73-78 (the embedded `sort.Interface` is always nil). -/
structure LabelKey where
  name : String
  value : Bytes
  vtype : VType
deriving DecidableEq, Repr

/-- The zero `LabelKey`. -/
def LabelKey.blank : LabelKey := ⟨"", [], .unset⟩

/-- label_key.go:53. -/
def maxLabelKeySize : Nat := 37

/-- label_key.go:55-59: the array of 37 entries, as a list of length 37. -/
abbrev LabelKeys := List LabelKey

/-- label_key.go:34-44, one iteration: the key entry of a selector. -/
def keyOf (l : Labels) (s : Selector) : LabelKey :=
  { name := s.name
    vtype := s.vtype
    value := match s.vtype with
      | .boolean => Dec.formatBool (l.getBool s.name)
      | .string => l.getString s.name
      | .int => Dec.formatInt (l.getInt s.name)
      | .unset => [] }

/-- label_key.go:31-47 `GetLabelKeys`. -/
def getLabelKeys (sels : List Selector) (l : Labels) : LabelKeys :=
  let used := (sels.take maxLabelKeySize).map (keyOf l)
  used ++ List.replicate (maxLabelKeySize - used.length) LabelKey.blank

/-- `strconv.ParseBool`, restricted to the two texts `FormatBool` writes; anything else is the
error result `false` (the other accepted spellings "1", "t", ... never occur in a key). -/
def parseBool (s : Bytes) : Bool := s == bs "true"

/-- label_key.go:92-103, one iteration. -/
def addLabel (acc : Labels) (k : LabelKey) : Labels :=
  match k.vtype with
  | .boolean => AMap.set acc k.name (.bool (parseBool k.value))
  | .string => AMap.set acc k.name (.str k.value)
  | .int => AMap.set acc k.name (.int (Dec.parseInt 64 k.value).1)
  | .unset => acc

/-- label_key.go:90-105 `GetLabels`. -/
def getLabels (ks : LabelKeys) : Labels := ks.foldl addLabel []

/-- label_key.go:112-124, one iteration of `GetLabelsKeys`. -/
def keyOfAttr (p : String × AttrVal) : LabelKey :=
  match p.2 with
  | .str s => ⟨p.1, s, .string⟩
  | .int i => ⟨p.1, Dec.formatInt i, .int⟩
  | .bool b => ⟨p.1, Dec.formatBool b, .boolean⟩

/-- Stable insertion by name: the effect of `sort.Sort` (label_key.go:61-71,125) on entries with
pairwise distinct names.  Simplification: unused slots (name "") all are equal, so their
relative order does not matter. -/
def insertByName (k : LabelKey) : List LabelKey → List LabelKey
  | [] => [k]
  | x :: r => if k.name < x.name then k :: x :: r else x :: insertByName k r

def sortByName : List LabelKey → List LabelKey
  | [] => []
  | x :: r => insertByName x (sortByName r)

/-- label_key.go:108-127 `GetLabelsKeys`: panics (index out of range) beyond 37 labels. -/
def getLabelsKeys (l : Labels) : Res LabelKeys :=
  if l.length > maxLabelKeySize then .panic
  else .ok (sortByName (l.map keyOfAttr ++ List.replicate (maxLabelKeySize - l.length) LabelKey.blank))

/-! ## Metrics (collector/pkg/model/metric.go) -/

/-- metric.go:96-101 `Histogram`. -/
structure Hist where
  sum : Int
  count : Nat
  bounds : List Int
  buckets : List Nat
deriving DecidableEq, Repr

/-- metric.go:11-17,40-49: payload of a metric; `none` is `NoneMetricType`. -/
inductive MData where
  | int (v : Int)
  | hist (h : Hist)
  | none
deriving DecidableEq, Repr

structure Metric where
  name : String
  data : MData
deriving DecidableEq, Repr

/-- data_group.go:11-16. -/
structure Group where
  name : String
  labels : Labels
  ts : Nat
  metrics : List Metric
deriving DecidableEq, Repr

/-! ## Accumulators (agg_values.go) -/

/-- agg_values.go:11-20. -/
inductive Kind where
  | sum | max | avg | last | count | histogram
deriving DecidableEq, Repr

/-- agg_values.go:41-58 `GetAggregatorKind`. -/
def Kind.ofString (s : String) : Kind :=
  if s = "sum" then .sum else if s = "max" then .max else if s = "avg" then .avg
  else if s = "last" then .last else if s = "count" then .count
  else if s = "histogram" then .histogram else .sum

/-- agg_values.go:65-70. -/
structure KindConfig where
  outputName : String
  kind : Kind
  bounds : List Int := []
deriving DecidableEq, Repr

/-- agg_values.go:61-63 `KindMap`; read only. -/
abbrev KindMap := String → Option (List KindConfig)

/-- State of an `aggregatedValues` implementation (agg_values.go:172-300). -/
inductive Acc where
  | sum (v : Int)
  | max (v : Int)
  | avg (v : Int) (count : Int)
  | last (v : Int)
  | count (v : Int)
  | hist (h : Hist)
deriving DecidableEq, Repr

/-- An accumulator together with its output name. -/
structure AggVal where
  name : String
  acc : Acc
deriving DecidableEq, Repr

/-- agg_values.go:143-161 `newAggValue`. -/
def Acc.init (c : KindConfig) : Acc :=
  match c.kind with
  | .sum => .sum 0
  | .max => .max 0
  | .avg => .avg 0 0
  | .last => .last 0
  | .count => .count 0
  | .histogram => .hist ⟨0, 0, c.bounds, List.replicate c.bounds.length 0⟩

def newAggValue (c : KindConfig) : AggVal := ⟨c.outputName, Acc.init c⟩

/-- agg_values.go:307-311: the bucket loop of `histogramValue.calculate`. -/
def bumpBuckets (v : Int) : List Int → List Nat → List Nat
  | b :: bs, c :: cs => (if v ≤ b then c + 1 else c) :: bumpBuckets v bs cs
  | _, cs => cs

/-- The `calculate` methods: agg_values.go:178-185 (max), 205-207 (sum), 228-234 (avg),
257-259 (last), 276-278 (count), 302-313 (histogram). -/
def Acc.calculate : Acc → Int → Acc
  | .sum a, v => .sum (a + v)
  | .max a, v => .max (if a < v then v else a)
  | .avg a c, v => .avg (a + v) (c + 1)
  | .last _, v => .last v
  | .count a, _ => .count (a + 1)
  | .hist h, v => .hist { h with sum := h.sum + v, count := h.count + 1, buckets := bumpBuckets v h.bounds h.buckets }

/-- agg_values.go:338-340: add bucket by bucket; `none` when the incoming histogram has more
buckets than the stored one (index out of range). -/
def addBuckets : List Nat → List Nat → Option (List Nat)
  | cs, [] => some cs
  | [], _ :: _ => none
  | c :: cs, d :: ds => (addBuckets cs ds).map ((c + d) :: ·)

/-- The `merge` methods: agg_values.go:196-198, 214-217, 244-250, 266-268, 281-284, 330-342. -/
def Acc.merge : Acc → Hist → Res Acc
  | .max _, _ => .err
  | .last _, _ => .err
  | .sum a, h => .ok (.sum (a + h.sum))
  | .avg a c, h => .ok (.avg (a + h.sum) (c + h.count))
  | .count a, h => .ok (.count (a + h.count))
  | .hist s, h =>
    if s.bounds.length ≠ h.bounds.length then .err
    else match addBuckets s.buckets h.buckets with
      | none => .panic
      | some b => .ok (.hist { s with sum := s.sum + h.sum, count := s.count + h.count, buckets := b })

/-- agg_values.go:109-115: dispatch on the metric type; a returned error is ignored by the
caller and leaves the accumulator unchanged.  `none` is a panic. -/
def Acc.apply (a : Acc) : MData → Option Acc
  | .int v => some (a.calculate v)
  | .hist h => match a.merge h with
    | .ok a' => some a'
    | .err => some a
    | .panic => none
  | .none => some a

/-- The `get` methods: agg_values.go:186-190, 208-210, 235-239 (integer division, panics when
nothing was counted), 260-262, 286-288, 315-324. -/
def Acc.get : Acc → Option MData
  | .sum v => some (.int v)
  | .max v => some (.int v)
  | .avg v c => if c = 0 then none else some (.int (v.tdiv c))
  | .last v => some (.int v)
  | .count v => some (.int v)
  | .hist h => some (.hist h)

def AggVal.get (v : AggVal) : Option Metric := v.acc.get.map (fun d => ⟨v.name, d⟩)

def AggVal.apply (v : AggVal) (d : MData) : Option AggVal := (v.acc.apply d).map (fun a => ⟨v.name, a⟩)

/-! ## Value maps and recorders -/

/-- agg_values.go:81-84 `defaultValuesMap`. -/
structure ValuesMap where
  values : AMap String (List AggVal)
  ts : Nat
deriving DecidableEq, Repr

/-- agg_values.go:86-101 `newAggValuesMap`. -/
def newAggValuesMap (kinds : KindMap) (ms : List Metric) : ValuesMap :=
  { values := ms.foldl (fun acc m => match kinds m.name with
      | none => acc
      | some cs => AMap.set acc m.name (cs.map newAggValue)) []
    ts := 0 }

/-- agg_values.go:104-117 `calculate`; `none` is a panic. -/
def ValuesMap.calculate (vm : ValuesMap) (m : Metric) (ts : Nat) : Option ValuesMap :=
  match AMap.get vm.values m.name with
  | none => some vm
  | some vs => match mapOpt (fun v => AggVal.apply v m.data) vs with
    | none => none
    | some vs' => some { values := AMap.set vm.values m.name vs', ts := ts }

/-- agg_values.go:131-137 `getAll`; `none` is a panic. -/
def ValuesMap.getAll (vm : ValuesMap) : Option (List Metric) :=
  (mapOpt (fun p => mapOpt AggVal.get p.2) vm.values).map List.flatten

/-- value_recorder.go:10-15 `valueRecorder`: label key to values. -/
abbrev Recorder := AMap LabelKeys ValuesMap

/-- value_recorder.go:37-39: record all metrics of a group into one values map. -/
def ValuesMap.recordAll (vm : ValuesMap) : List Metric → Nat → Option ValuesMap
  | [], _ => some vm
  | m :: ms, ts => match vm.calculate m ts with
    | none => none
    | some vm' => vm'.recordAll ms ts

/-- value_recorder.go:32-36: load the values map of a key or create it from the metrics at hand. -/
def Recorder.loadOrNew (kinds : KindMap) (r : Recorder) (key : LabelKeys) (ms : List Metric) : ValuesMap :=
  match AMap.get r key with
  | some vm => vm
  | none => newAggValuesMap kinds ms

/-- value_recorder.go:28-40 `Record`. -/
def Recorder.record (kinds : KindMap) (r : Recorder) (key : LabelKeys) (ms : List Metric) (ts : Nat) :
    Option Recorder :=
  ((r.loadOrNew kinds key ms).recordAll ms ts).map (fun vm' => AMap.set r key vm')

/-- value_recorder.go:44-54 `dump`. -/
def Recorder.dump (name : String) (r : Recorder) : Option (List Group) :=
  mapOpt (fun p => p.2.getAll.map (fun ms => ⟨name, getLabels p.1, p.2.ts, ms⟩)) r

/-! ## Aggregator (default_aggregator.go) -/

/-- default_aggregator.go:15-21: recorder per group name. -/
abbrev State := AMap String Recorder

/-- default_aggregator.go:31-44 `Aggregate`. -/
def aggregate (kinds : KindMap) (st : State) (g : Group) (sels : List Selector) : Option State :=
  let r := (AMap.get st g.name).getD []
  (r.record kinds (getLabelKeys sels g.labels) g.metrics g.ts).map (fun r' => AMap.set st g.name r')

/-- default_aggregator.go:46-58 `Dump` with value_recorder.go:58-60 `reset`. -/
def dump (st : State) : Option (State × List Group) :=
  (mapOpt (fun p => Recorder.dump p.1 p.2) st).map (fun gs => (st.map (fun p => (p.1, [])), gs.flatten))

/-- default_aggregator.go:60-70 `DumpSingle`. -/
def dumpSingle (st : State) (name : String) : Option (State × List Group) :=
  match AMap.get st name with
  | none => some (st, [])
  | some r => (r.dump name).map (fun gs => (AMap.set st name [], gs))

/-- default_aggregator.go:72-77 `CheckExist`. -/
def checkExist (st : State) (name : String) : Bool := (AMap.get st name).isSome

/-- The calls a user can make. -/
inductive Op where
  | aggregate (g : Group) (sels : List Selector)
  | dump
  | dumpSingle (name : String)

def step (kinds : KindMap) (st : State) : Op → Option (State × List Group)
  | .aggregate g sels => (aggregate kinds st g sels).map (fun st' => (st', []))
  | .dump => dump st
  | .dumpSingle n => dumpSingle st n

/-- Runs a history; `none` if some call panics.  The second component lists everything that was
dumped. -/
def run (kinds : KindMap) : State → List Op → Option (State × List Group)
  | st, [] => some (st, [])
  | st, op :: ops =>
    match step kinds st op with
    | none => none
    | some (st', out) => (run kinds st' ops).map (fun p => (p.1, out ++ p.2))

end Kindling.Agg
