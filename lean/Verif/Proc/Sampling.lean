import Verif.Dec
/-
Sampling and aggregation of records (component/consumer/processor/aggregateprocessor/processor.go) and traffic between
nodes (component/consumer/processor/nodemetricprocessor/node_metric_processor.go).
-/
namespace Kindling.Proc.Sampling

/-! ### Sampling -/

/-- What `isSampled` and `Consume` read of a record; `errorType` is the label `ErrorType`; `body` is the rest. -/
structure Rec (β : Type) where
  name : Bytes
  slow : Bool
  error : Bool
  errorType : Int
  body : β

structure Cfg where
  normal : Int
  slow : Int
  error : Int

variable {β : Type}

/-- `isAbnormal` (267-270); `NoError` is 0. -/
def abnormal (g : Rec β) : Bool := g.slow || g.error || decide (g.errorType > 0)

/-- `isSampled` (249-264); `r` is `rand.Intn(100)`. -/
def isSampled (c : Cfg) (r : Nat) (g : Rec β) : Bool :=
  if abnormal g then
    if decide ((r : Int) < c.slow) && g.slow then true
    else if decide ((r : Int) < c.error) && g.error then true
    else false
  else if (r : Int) < c.normal then true else false

def netGroup : Bytes := bs "net_request_metric_group"
def singleGroup : Bytes := bs "single_net_request_metric_group"
def aggGroup : Bytes := bs "aggregated_net_request_metric_group"

/-- The selectors of labels a record is aggregated with. -/
inductive Sel
  | net
  | tcp
  | connect
deriving DecidableEq

/-- What the processor has done: records handed on and records aggregated, in order. -/
structure St (β : Type) where
  forwarded : List (Rec β)
  aggregated : List (Rec β × Sel)

/-- `Consume` (113-142).  Simplified: the next consumer does not change the record. -/
def consume (c : Cfg) (r : Nat) (g : Rec β) (s : St β) : St β :=
  if g.name = netGroup then
    let s := if isSampled c r g then { s with forwarded := s.forwarded ++ [{ g with name := singleGroup }] } else s
    { s with aggregated := s.aggregated ++ [({ g with name := aggGroup }, .net)] }
  else if g.name = bs "tcp_rtt_metric_group" ∨ g.name = bs "tcp_retransmit_metric_group" ∨ g.name = bs "tcp_drop_metric_group" then
    { s with aggregated := s.aggregated ++ [(g, .tcp)] }
  else if g.name = bs "tcp_connect_metric_group" then
    { s with aggregated := s.aggregated ++ [(g, .connect)] }
  else { s with aggregated := s.aggregated ++ [(g, .net)] }

def run (c : Cfg) (h : List (Nat × Rec β)) : St β := h.foldl (fun s x => consume c x.1 x.2 s) ⟨[], []⟩

/-- C58, when a record is forwarded. -/
theorem sampled_iff (c : Cfg) (r : Nat) (g : Rec β) :
    isSampled c r g = true ↔
      (g.slow = true ∧ (r : Int) < c.slow) ∨ (g.error = true ∧ (r : Int) < c.error) ∨
      (g.slow = false ∧ g.error = false ∧ g.errorType ≤ 0 ∧ (r : Int) < c.normal) := by
  unfold isSampled abnormal
  cases hs : g.slow <;> cases he : g.error <;> by_cases h1 : g.errorType > 0 <;> by_cases h2 : (r : Int) < c.slow <;>
    by_cases h3 : (r : Int) < c.error <;> by_cases h4 : (r : Int) < c.normal <;> simp [h1, h2, h3, h4] <;> omega

/-- Spec: how many of the 100 equally likely draws are below a rate. -/
def clamp (n : Int) : Nat := min 100 n.toNat

theorem count_below (n : Int) : (List.range 100).countP (fun r : Nat => decide ((r : Int) < n)) = clamp n := by
  have h : ∀ m : Nat, (List.range m).countP (fun r : Nat => decide ((r : Int) < n)) = min m n.toNat := by
    intro m
    induction m with
    | zero => simp
    | succ m ih =>
      rw [List.range_succ, List.countP_append, ih]
      simp only [List.countP_cons, List.countP_nil]
      by_cases hm : (m : Int) < n
      · simp only [hm, decide_true, if_true]; omega
      · simp only [hm, decide_false]; simp; omega
  exact h 100

/-- C58, the rates: of the 100 possible draws, exactly the configured number forwards the record; for a record that is
slow and an error, the larger of the two. -/
theorem sampling_rate (c : Cfg) (g : Rec β) :
    ((g.slow = true ∧ g.error = false) → (List.range 100).countP (fun r => isSampled c r g) = clamp c.slow) ∧
    ((g.slow = false ∧ g.error = true) → (List.range 100).countP (fun r => isSampled c r g) = clamp c.error) ∧
    ((g.slow = true ∧ g.error = true) → (List.range 100).countP (fun r => isSampled c r g) = clamp (max c.slow c.error)) ∧
    ((g.slow = false ∧ g.error = false ∧ g.errorType ≤ 0) → (List.range 100).countP (fun r => isSampled c r g) = clamp c.normal) := by
  have hc : ∀ n, (∀ r : Nat, isSampled c r g = true ↔ (r : Int) < n) →
      (List.range 100).countP (fun r => isSampled c r g) = clamp n := by
    intro n h
    rw [← count_below n]
    apply List.countP_congr
    intro r _
    rw [h r]; simp
  refine ⟨fun h => hc _ ?_, fun h => hc _ ?_, fun h => hc _ ?_, fun h => hc _ ?_⟩
  · intro r; rw [sampled_iff]; simp [h]
  · intro r; rw [sampled_iff]; simp [h]
  · intro r; rw [sampled_iff]; simp [h]; omega
  · intro r; rw [sampled_iff]; simp [h]

/-- Finding: a record with an error type but neither flag is never forwarded, whatever the rates. -/
theorem error_type_only_never_forwarded (c : Cfg) (r : Nat) (g : Rec β) (h1 : g.slow = false) (h2 : g.error = false)
    (h3 : g.errorType > 0) : isSampled c r g = false := by
  cases h : isSampled c r g with
  | false => rfl
  | true =>
    rw [sampled_iff] at h
    simp [h1, h2] at h
    omega

theorem run_snoc (c : Cfg) (h : List (Nat × Rec β)) (x : Nat × Rec β) :
    run c (h ++ [x]) = consume c x.1 x.2 (run c h) := by
  simp [run]

/-- Spec: the record as aggregated. -/
def asAggregated (g : Rec β) : Rec β := if g.name = netGroup then { g with name := aggGroup } else g

/-- C58.  For every history of records and draws, every record is aggregated, exactly once and in order, whether or not
it is forwarded; exactly the sampled network records are forwarded. -/
theorem sampling_never_drops (c : Cfg) (h : List (Nat × Rec β)) :
    (run c h).aggregated.map (·.1) = h.map (fun x => asAggregated x.2) ∧
    (run c h).forwarded =
      (h.filter (fun x => decide (x.2.name = netGroup) && isSampled c x.1 x.2)).map (fun x => { x.2 with name := singleGroup }) := by
  have hd : ∀ l : List (Nat × Rec β), ∀ s : St β,
      (l.foldl (fun s x => consume c x.1 x.2 s) s).aggregated.map (·.1) = s.aggregated.map (·.1) ++ l.map (fun x => asAggregated x.2) ∧
      (l.foldl (fun s x => consume c x.1 x.2 s) s).forwarded = s.forwarded ++
        (l.filter (fun x => decide (x.2.name = netGroup) && isSampled c x.1 x.2)).map (fun x => { x.2 with name := singleGroup }) := by
    intro l
    induction l with
    | nil => intro s; simp
    | cons x r ih =>
      intro s
      rw [List.foldl_cons]
      obtain ⟨h1, h2⟩ := ih (consume c x.1 x.2 s)
      rw [h1, h2]
      have ha : (consume c x.1 x.2 s).aggregated.map (·.1) = s.aggregated.map (·.1) ++ [asAggregated x.2] := by
        unfold consume asAggregated
        by_cases hn : x.2.name = netGroup
        · simp only [hn, if_true]; split <;> simp
        · simp only [hn, if_false]; repeat' split
          all_goals simp
      have hf : (consume c x.1 x.2 s).forwarded = s.forwarded ++
          if x.2.name = netGroup ∧ isSampled c x.1 x.2 = true then [{ x.2 with name := singleGroup }] else [] := by
        unfold consume
        by_cases hn : x.2.name = netGroup
        · simp only [hn, if_true, true_and]; split <;> simp
        · simp only [hn, if_false, false_and]; repeat' split
          all_goals simp
      rw [ha, hf]
      constructor
      · simp
      · by_cases hc : x.2.name = netGroup ∧ isSampled c x.1 x.2 = true
        · rw [if_pos hc]; simp [hc]
        · rw [if_neg hc]
          have : (decide (x.2.name = netGroup) && isSampled c x.1 x.2) = false := by
            cases hb : isSampled c x.1 x.2 <;> simp_all
          simp [this]
  obtain ⟨h1, h2⟩ := hd h ⟨[], []⟩
  exact ⟨by simpa [run] using h1, by simpa [run] using h2⟩

/-- C58, C89: names and selectors.  A network record is aggregated under the name of aggregated network records and,
if it is sampled, handed on under the name of single ones; the three groups of TCP states and the connections are
aggregated by their own labels. -/
theorem groups_and_selectors (c : Cfg) (h : List (Nat × Rec β)) :
    (run c h).aggregated = h.map (fun x =>
      if x.2.name = bs "net_request_metric_group" then ({ x.2 with name := bs "aggregated_net_request_metric_group" }, .net)
      else (x.2, if x.2.name ∈ [bs "tcp_rtt_metric_group", bs "tcp_retransmit_metric_group", bs "tcp_drop_metric_group"] then .tcp
        else if x.2.name = bs "tcp_connect_metric_group" then .connect else .net)) ∧
    (∀ y ∈ (run c h).forwarded, y.name = bs "single_net_request_metric_group" ∧
      ∃ x ∈ h, x.2.name = bs "net_request_metric_group" ∧ y = { x.2 with name := y.name }) := by
  constructor
  · induction h using snoc_ind with
    | nil => rfl
    | snoc l x ih =>
      rw [run_snoc, List.map_append, ← ih]
      unfold consume netGroup aggGroup
      by_cases hn : x.2.name = bs "net_request_metric_group"
      · simp only [hn, if_true, List.map_cons, List.map_nil]; split <;> simp
      · simp only [hn, if_false, List.map_cons, List.map_nil, List.mem_cons, List.not_mem_nil, or_false]
        split
        · rename_i ht; simp
        · rename_i ht; split <;> simp
  · intro y hy
    rw [(sampling_never_drops c h).2] at hy
    obtain ⟨x, hx, rfl⟩ := List.mem_map.1 hy
    have hx' := List.mem_filter.1 hx
    simp only [Bool.and_eq_true, decide_eq_true_eq] at hx'
    exact ⟨rfl, x, hx'.1, hx'.2.1, rfl⟩

/-- C58 with the rates 0/100/100 of the default configuration: exactly slow and error records are forwarded. -/
theorem default_rates (r : Nat) (hr : r < 100) (g : Rec β) :
    isSampled ⟨0, 100, 100⟩ r g = true ↔ g.slow = true ∨ g.error = true := by
  rw [sampled_iff]
  have h1 : (r : Int) < 100 := by omega
  have h2 : ¬ (r : Int) < 0 := by omega
  simp only [h1, h2, and_true, and_false, or_false]

example : (run ⟨0, 100, 100⟩ [(7, ⟨netGroup, true, false, 0, 1⟩), (99, ⟨netGroup, false, false, 0, 2⟩)]).forwarded.map (·.body) = [1] ∧
    (run ⟨0, 100, 100⟩ [(7, ⟨netGroup, true, false, 0, 1⟩), (99, ⟨netGroup, false, false, 0, 2⟩)]).aggregated.map (·.1.body) = [1, 2] := by decide

/-! ### Traffic between nodes -/

inductive Val
  | int (n : Int)
  | hist

/-- What the node processor reads of a record. -/
structure Grp where
  srcNodeIp : Bytes
  srcNode : Bytes
  dstNodeIp : Bytes
  dstNode : Bytes
  isServer : Bool
  metrics : List (Bytes × Val)

/-- `GetMetric` (model/data_group.go:27-34). -/
def getMetric : List (Bytes × Val) → Bytes → Option Val
  | [], _ => none
  | (k, v) :: r, n => if k = n then some v else getMetric r n

/-- A record of the node group: bytes sent from one node to another. -/
structure Traffic where
  srcNodeIp : Bytes
  srcNode : Bytes
  dstNodeIp : Bytes
  dstNode : Bytes
  role : Bytes
  bytes : Int
deriving DecidableEq

/-- Lines 69-88: request bytes; `GetInt()` is nil for histograms. -/
def reqPart (g : Grp) (role : Bytes) : Res (List Traffic) :=
  match getMetric g.metrics (bs "request_io") with
  | none => .ok []
  | some (.int n) => .ok [⟨g.srcNodeIp, g.srcNode, g.dstNodeIp, g.dstNode, role, n⟩]
  | some .hist => .panic

/-- Lines 89-113: response bytes. -/
def respPart (g : Grp) (role : Bytes) : Res (List Traffic) :=
  match getMetric g.metrics (bs "response_io") with
  | none => .ok []
  | some (.int n) => .ok [⟨g.dstNodeIp, g.dstNode, g.srcNodeIp, g.srcNode, role, n⟩]
  | some .hist => .panic

/-- `Consume` and `process` (41-117): the groups given to the next consumer; `none` are nil labels. -/
def nodeConsume : Option Grp → Res (List Traffic)
  | none => .ok []
  | some g =>
    if g.dstNodeIp = [] ∨ g.srcNodeIp = [] then .ok []
    else do
      let role := if g.isServer then bs "server" else bs "client"
      let a ← reqPart g role
      let b ← respPart g role
      .ok (a ++ b)

/-- Spec: one direction of a record as bytes from one node to another. -/
def wellDirected (g : Grp) (t : Traffic) (metric : Bytes) : Prop :=
  ∃ n, getMetric g.metrics metric = some (.int n) ∧ t.bytes = n ∧
    t.role = (if g.isServer then bs "server" else bs "client") ∧
    (metric = bs "request_io" → t.srcNodeIp = g.srcNodeIp ∧ t.srcNode = g.srcNode ∧ t.dstNodeIp = g.dstNodeIp ∧ t.dstNode = g.dstNode) ∧
    (metric = bs "response_io" → t.srcNodeIp = g.dstNodeIp ∧ t.srcNode = g.dstNode ∧ t.dstNodeIp = g.srcNodeIp ∧ t.dstNode = g.srcNode)

theorem req_ne_resp : bs "request_io" ≠ bs "response_io" := by decide

/-- C59.  Request bytes go from the source node to the destination node, response bytes back; each is reported once,
and only if both addresses are known. -/
theorem traffic_direction (g : Grp) (out : List Traffic) (h : nodeConsume (some g) = .ok out) :
    (∀ t ∈ out, g.srcNodeIp ≠ [] ∧ g.dstNodeIp ≠ [] ∧
      (wellDirected g t (bs "request_io") ∨ wellDirected g t (bs "response_io"))) ∧
    (g.srcNodeIp ≠ [] → g.dstNodeIp ≠ [] →
      out.length = (if (getMetric g.metrics (bs "request_io")).isSome then 1 else 0) +
        (if (getMetric g.metrics (bs "response_io")).isSome then 1 else 0) ∧
      ((getMetric g.metrics (bs "request_io")).isSome → ∃ t ∈ out, wellDirected g t (bs "request_io")) ∧
      ((getMetric g.metrics (bs "response_io")).isSome → ∃ t ∈ out, wellDirected g t (bs "response_io"))) := by
  simp only [nodeConsume] at h
  split at h
  · rename_i hc
    cases h
    refine ⟨fun t ht => (by cases ht), fun h1 h2 => ?_⟩
    rcases hc with hc | hc
    · exact absurd hc h2
    · exact absurd hc h1
  · rename_i hc
    have hs : g.srcNodeIp ≠ [] := fun h => hc (Or.inr h)
    have hd : g.dstNodeIp ≠ [] := fun h => hc (Or.inl h)
    unfold reqPart respPart at h
    have hne := req_ne_resp
    cases h1 : getMetric g.metrics (bs "request_io") with
    | none =>
      cases h2 : getMetric g.metrics (bs "response_io") with
      | none =>
        simp [h1, h2] at h
        subst h
        simp
      | some v2 =>
        cases v2 with
        | hist => simp [h1, h2] at h
        | int n2 =>
          simp [h1, h2] at h
          subst h
          simp only [List.mem_singleton]
          refine ⟨fun t ht => ⟨hs, hd, Or.inr ?_⟩, fun _ _ => ⟨by simp, (fun h => by cases h), fun _ => ⟨_, rfl, ?_⟩⟩⟩
          · subst ht; exact ⟨n2, h2, rfl, rfl, fun h => absurd h hne.symm, fun _ => ⟨rfl, rfl, rfl, rfl⟩⟩
          · exact ⟨n2, h2, rfl, rfl, fun h => absurd h hne.symm, fun _ => ⟨rfl, rfl, rfl, rfl⟩⟩
    | some v1 =>
      cases v1 with
      | hist => simp [h1] at h
      | int n1 =>
        cases h2 : getMetric g.metrics (bs "response_io") with
        | none =>
          simp [h1, h2] at h
          subst h
          simp only [List.mem_singleton]
          refine ⟨fun t ht => ⟨hs, hd, Or.inl ?_⟩, fun _ _ => ⟨by simp, fun _ => ⟨_, rfl, ?_⟩, fun h => by cases h⟩⟩
          · subst ht; exact ⟨n1, h1, rfl, rfl, fun _ => ⟨rfl, rfl, rfl, rfl⟩, fun h => absurd h hne⟩
          · exact ⟨n1, h1, rfl, rfl, fun _ => ⟨rfl, rfl, rfl, rfl⟩, fun h => absurd h hne⟩
        | some v2 =>
          cases v2 with
          | hist => simp [h1, h2] at h
          | int n2 =>
            simp [h1, h2] at h
            subst h
            refine ⟨fun t ht => ⟨hs, hd, ?_⟩, fun _ _ => ⟨by simp, fun _ => ⟨_, List.mem_cons_self, ?_⟩, fun _ => ⟨_, List.mem_cons_of_mem _ List.mem_cons_self, ?_⟩⟩⟩
            · simp only [List.mem_cons, List.not_mem_nil, or_false] at ht
              rcases ht with rfl | rfl
              · exact Or.inl ⟨n1, h1, rfl, rfl, fun _ => ⟨rfl, rfl, rfl, rfl⟩, fun h => absurd h hne⟩
              · exact Or.inr ⟨n2, h2, rfl, rfl, fun h => absurd h hne.symm, fun _ => ⟨rfl, rfl, rfl, rfl⟩⟩
            · exact ⟨n1, h1, rfl, rfl, fun _ => ⟨rfl, rfl, rfl, rfl⟩, fun h => absurd h hne⟩
            · exact ⟨n2, h2, rfl, rfl, fun h => absurd h hne.symm, fun _ => ⟨rfl, rfl, rfl, rfl⟩⟩

/-- It fails only on a histogram where a number is expected. -/
theorem node_no_panic (g : Option Grp)
    (h : ∀ x, g = some x → getMetric x.metrics (bs "request_io") ≠ some .hist ∧ getMetric x.metrics (bs "response_io") ≠ some .hist) :
    ∃ out, nodeConsume g = .ok out := by
  cases g with
  | none => exact ⟨_, rfl⟩
  | some g =>
    obtain ⟨h1, h2⟩ := h g rfl
    simp only [nodeConsume]
    split
    · exact ⟨_, rfl⟩
    · unfold reqPart respPart
      cases e1 : getMetric g.metrics (bs "request_io") with
      | none => cases e2 : getMetric g.metrics (bs "response_io") with
        | none => exact ⟨_, rfl⟩
        | some v => cases v with
          | int n => exact ⟨_, rfl⟩
          | hist => exact absurd e2 h2
      | some v => cases v with
        | hist => exact absurd e1 h1
        | int n => cases e2 : getMetric g.metrics (bs "response_io") with
          | none => exact ⟨_, rfl⟩
          | some v => cases v with
            | int n => exact ⟨_, rfl⟩
            | hist => exact absurd e2 h2

example : nodeConsume (some ⟨bs "10.0.0.1", bs "a", bs "10.0.0.2", bs "b", true, [(bs "request_io", .int 5), (bs "response_io", .int 7)]⟩) =
    .ok [⟨bs "10.0.0.1", bs "a", bs "10.0.0.2", bs "b", bs "server", 5⟩, ⟨bs "10.0.0.2", bs "b", bs "10.0.0.1", bs "a", bs "server", 7⟩] := by decide

/-- C59: the metric of a name is the first of that name, and there is none if no metric has it. -/
theorem getMetric_first (l : List (Bytes × Val)) (n : Bytes) :
    (∀ v, getMetric l n = some v ↔ ∃ a b, l = a ++ (n, v) :: b ∧ ∀ p ∈ a, p.1 ≠ n) ∧
    (getMetric l n = none ↔ ∀ p ∈ l, p.1 ≠ n) := by
  induction l with
  | nil => simp [getMetric]
  | cons q r ih =>
    obtain ⟨k, w⟩ := q
    obtain ⟨ih1, ih2⟩ := ih
    by_cases hk : k = n
    · subst hk
      simp only [getMetric, if_true, Option.some.injEq, List.mem_cons, forall_eq_or_imp, ne_eq, not_true, false_and, reduceCtorEq]
      refine ⟨fun v => ⟨?_, ?_⟩, trivial⟩
      · rintro rfl; exact ⟨[], r, rfl, by simp⟩
      · rintro ⟨a, b, h, ha⟩
        cases a with
        | nil => simp only [List.nil_append, List.cons.injEq, Prod.mk.injEq, true_and] at h; exact h.1
        | cons q a =>
          simp only [List.cons_append, List.cons.injEq] at h
          exact absurd (by rw [← h.1]) (ha q (by simp))
    · simp only [getMetric, if_neg hk, List.mem_cons, forall_eq_or_imp]
      have hk' : ((k, w) : Bytes × Val).1 ≠ n := hk
      simp only [hk', ne_eq, not_false_eq_true, true_and, if_false]
      refine ⟨fun v => ?_, ih2⟩
      rw [ih1]
      constructor
      · rintro ⟨a, b, rfl, ha⟩
        exact ⟨(k, w) :: a, b, rfl, by simpa [hk] using ha⟩
      · rintro ⟨a, b, h, ha⟩
        cases a with
        | nil =>
          simp only [List.nil_append, List.cons.injEq, Prod.mk.injEq] at h
          exact absurd h.1.1 hk
        | cons q a =>
          simp only [List.cons_append, List.cons.injEq] at h
          exact ⟨a, b, h.2, fun x hx => ha x (by simp [hx])⟩

end Kindling.Proc.Sampling
