import Verif.Export.Adapter
/-
How the converters of the network adapter are built.  component/consumer/exporter/tools/adapter/label_converter.go:26-39, 59-68, 104-282,
336-349 and net_adapter.go:160-236.
-/
namespace Kindling.Export.Builder
open Kindling.Export.Labels Kindling.Export.Adapter

/-- `extraLabelsKey` (label_converter.go:59-61); `none` is the protocol `empty`. -/
abbrev Key := Option Proto

/-- `extraLabelsParam` (label_converter.go:63-66). -/
structure Param where
  dic : List Dict
  key : Key

/-- `updateKey` (label_converter.go:95). -/
abbrev Update := Key → Lab → Key

/-- `metricAdapterBuilder` (label_converter.go:26-39).  `valueLabelsFunc` is kept with the keys; `vkeys = []` is a nil list, which
`build` treats alike. -/
structure Builder where
  base : List Dict
  params : List Param
  keys : List Key
  updates : List Update
  vkeys : List Bytes
  consts : List (Bytes × Val)
  adjs : List Adj

/-- `updateProtocolKey` (label_converter.go:70-92). -/
def updateProtocol : Update := fun _ g => some (protoOf (g.gs (bs "protocol")))

/-- `newAdapterBuilder` (label_converter.go:123-147).  The base labels it also makes are not used.  The slices appended to are literals,
full to their capacity, so that `append` copies them. -/
def newBuilder (base : List Dict) (common : List (List Dict)) : Builder :=
  ⟨common.foldl (fun b ds => ds.foldl (fun b d => b ++ [d]) b) base, [], [], [], [], [], []⟩

/-- `simpleMergeKey` (label_converter.go:104-112) on a key that is there. -/
def mergeKey (k other : Key) : Key := match k with
  | none => other
  | some p => some p

/-- `simpleMergeParam` (label_converter.go:114-121) on a parameter that is there. -/
def mergeParam (p other : Param) : Param := { p with dic := p.dic ++ other.dic }

/-- The inner loop of `withExtraLabels` (label_converter.go:169-175): each key and each parameter of the builder is changed in place and
a copy of it goes to the end of the new lists. -/
def cross (st : (List Key × List Param) × (List Key × List Param)) (p : Param) : (List Key × List Param) × (List Key × List Param) :=
  let ks := st.1.1.map (fun k => mergeKey k p.key)
  let ps := st.1.2.map (fun q => mergeParam q p)
  ((ks, ps), (st.2.1 ++ ks, st.2.2 ++ ps))

/-- `withExtraLabels` (label_converter.go:153-182).  The new lists are made with their length, not with their capacity. -/
def withExtra (b : Builder) (ps : List Param) (u : Update) : Builder :=
  if b.keys = [] then { b with keys := ps.map (·.key), params := ps, updates := [u] }
  else
    let start : (List Key × List Param) × (List Key × List Param) := ((b.keys, b.params),
      (List.replicate (b.keys.length * ps.length) none, List.replicate (b.params.length * ps.length) ⟨[], none⟩))
    let r := ps.foldl cross start
    { b with keys := r.2.1, params := r.2.2 }

/-- `withValueToLabels`, `withConstLabels`, `withAdjust` (label_converter.go:184-198). -/
def withValues (b : Builder) (ks : List Bytes) : Builder := { b with vkeys := ks }
def withConsts (b : Builder) (cs : List (Bytes × Val)) : Builder := { b with consts := cs }
def withAdjust (b : Builder) (a : Adj) : Builder := { b with adjs := b.adjs ++ [a] }

/-- `LabelConverter` (label_converter.go:14-25). -/
structure Converter where
  labels : AMap Key Real
  updates : List Update
  adjs : List Adj

/-- The loop of `build` (label_converter.go:210-273) from place `i` on; `none` is an index out of range. -/
def fill (b : Builder) : List Key → Nat → AMap Key Real → Option (AMap Key Real)
  | [], _, m => some m
  | k :: r, i, m => match b.params[i]? with
    | none => none
    | some p => fill b r (i + 1) (m.set k (Labels.build (b.base ++ p.dic) b.vkeys b.consts))

/-- `build` (label_converter.go:200-282). -/
def build (b : Builder) : Option Converter := match fill b b.keys 0 [] with
  | none => none
  | some m => some ⟨m, b.updates, b.adjs⟩

/-- `searchExtraAttribute` (label_converter.go:337-349).  `none` is a structure without pools: `Get` on it is a panic (:286, 354). -/
def search (c : Converter) (g : Lab) : Option Real :=
  let k := c.updates.foldl (fun k u => u k g) none
  match c.labels.get k with
  | some r => some r
  | none => c.labels.get (some .unsupported)

/-- The parameters of the network dictionaries (net_dict.go). -/
def paramsOf (l : List (Proto × List Dict)) : List Param := l.map (fun e => ⟨e.2, some e.1⟩)

/-- `createNetAdapterManager` (net_adapter.go:160-223): the ten converters in the order of the code. -/
def manager (cs : List (Bytes × Val)) : List Builder :=
  [withConsts (withExtra (newBuilder entityBase [isSlowDict]) (paramsOf entityProtocol) updateProtocol) cs,
   withConsts (withExtra (newBuilder entityBase [entityInstance, entityDetail, isSlowDict]) (paramsOf entityProtocol) updateProtocol) cs,
   withConsts (withAdjust (withExtra (newBuilder topologyBase [isSlowDict]) (paramsOf topologyProtocol) updateProtocol) .removeDst) cs,
   withConsts (withAdjust (withExtra (newBuilder topologyBase [topologyInstance, topologyDetail, isSlowDict]) (paramsOf topologyProtocol)
     updateProtocol) .replaceNat) cs,
   withConsts (withExtra (newBuilder entityBase []) (paramsOf entityProtocol) updateProtocol) cs,
   withConsts (withExtra (newBuilder entityBase [entityInstance, entityDetail]) (paramsOf entityProtocol) updateProtocol) cs,
   withConsts (withAdjust (withExtra (newBuilder topologyBase []) (paramsOf topologyProtocol) updateProtocol) .removeDst) cs,
   withConsts (withAdjust (withExtra (newBuilder topologyBase [topologyInstance, topologyDetail]) (paramsOf topologyProtocol)
     updateProtocol) .replaceNat) cs,
   withConsts (withValues (withExtra (newBuilder topologyBase [topologyInstance, spanDict, dNat]) (paramsOf spanProtocol) updateProtocol)
     traceSpanStatus) cs,
   withConsts (withValues (withExtra (newBuilder topologyBase [topologyInstance, topologyDetail, dNat]) (paramsOf entityProtocol) updateProtocol)
     traceStatus) cs]

/-- The adjustments of a converter one after the other (label_converter.go:329-331, 388-390), on lists. -/
def adjustAll (as : List Adj) (g : Lab) (l : List (Bytes × Val)) : List (Bytes × Val) := as.foldl (fun l a => adjustL a g l) l

/-- The same on maps. -/
def adjustAllM (as : List Adj) (g : Lab) (m : AMap Bytes Val) : AMap Bytes Val := as.foldl (fun m a => adjustM a g m) m

/-! ### The converters of `Adapter.lean` are those the code builds -/

theorem snoc_all (ds b : List Dict) : ds.foldl (fun b d => b ++ [d]) b = b ++ ds := by
  induction ds generalizing b with
  | nil => simp
  | cons d r ih => simp only [List.foldl_cons, ih, List.append_assoc, List.singleton_append]

/-- The common entries follow the base, in order. -/
theorem base_then_common (base : List Dict) (common : List (List Dict)) : (newBuilder base common).base = base ++ common.flatten := by
  unfold newBuilder
  simp only
  induction common generalizing base with
  | nil => simp
  | cons ds r ih =>
    rw [List.foldl_cons, ih, snoc_all, List.flatten_cons, List.append_assoc]

/-- The last parameter with a key is the one that counts. -/
def lastOf (kps : List (Key × Param)) (k : Key) : Option Param := (kps.reverse.find? (fun e => e.1 == k)).map (·.2)

theorem fill_get (b : Builder) : ∀ (ks : List Key) (i : Nat) (m : AMap Key Real), i + ks.length ≤ b.params.length →
    ∃ m', fill b ks i m = some m' ∧ ∀ k, m'.get k = (match lastOf (ks.zip (b.params.drop i)) k with
      | some p => some (Labels.build (b.base ++ p.dic) b.vkeys b.consts)
      | none => m.get k) := by
  intro ks
  induction ks with
  | nil => intro i m _; exact ⟨m, rfl, fun k => rfl⟩
  | cons x r ih =>
    intro i m hle
    simp only [List.length_cons] at hle
    have hi : i < b.params.length := by omega
    have hd : b.params.drop i = b.params[i] :: b.params.drop (i + 1) := List.drop_eq_getElem_cons hi
    obtain ⟨m', h1, h2⟩ := ih (i + 1) (m.set x (Labels.build (b.base ++ b.params[i].dic) b.vkeys b.consts)) (by omega)
    refine ⟨m', ?_, fun k => ?_⟩
    · unfold fill
      rw [List.getElem?_eq_getElem hi]
      exact h1
    · rw [h2 k, hd]
      unfold lastOf
      simp only [List.zip_cons_cons, List.reverse_cons, List.find?_append]
      cases hf : (r.zip (b.params.drop (i + 1))).reverse.find? (fun e => e.1 == k) with
      | some e => rfl
      | none =>
        simp only [Option.map_none, Option.none_or, AMap.get_set]
        by_cases hx : x = k
        · subst hx; simp
        · have : (x == k) = false := by simpa using hx
          simp [hx, this]

theorem lastOf_nodup (ps : List Param) (hn : (ps.map (·.key)).Nodup) (k : Key) :
    lastOf ((ps.map (·.key)).zip ps) k = ps.find? (fun p => p.key == k) := by
  induction ps with
  | nil => rfl
  | cons p r ih =>
    simp only [List.map_cons, List.nodup_cons] at hn
    unfold lastOf at ih ⊢
    simp only [List.map_cons, List.zip_cons_cons, List.reverse_cons, List.find?_append, List.find?_cons, List.find?_nil]
    by_cases hk : p.key = k
    · have hnone : ((r.map (·.key)).zip r).reverse.find? (fun e => e.1 == k) = none := by
        rw [List.find?_eq_none]
        intro e he
        have : e.1 ∈ r.map (·.key) := (List.of_mem_zip (List.mem_reverse.1 he)).1
        simp only [beq_iff_eq]
        intro h
        exact hn.1 (by rw [hk, ← h]; exact this)
      have : (p.key == k) = true := by simpa using hk
      simp [hnone, this]
    · have : (p.key == k) = false := by simpa using hk
      simp only [this]
      rw [← ih hn.2]
      simp

/-- The entries a converter has for a protocol: those of its own parameter, or those for protocols it does not know. -/
def extraFor (ps : List Param) (p : Proto) : Option (List Dict) := match ps.find? (fun q => q.key == some p) with
  | some q => some q.dic
  | none => (ps.find? (fun q => q.key == some .unsupported)).map (·.dic)

/-- A builder whose extra labels were given once: it builds, and every group is converted with the base, the common entries and those of
its protocol. -/
theorem built_as_listed (base : List Dict) (common : List (List Dict)) (ps : List Param) (hn : (ps.map (·.key)).Nodup)
    (vk : List Bytes) (cs : List (Bytes × Val)) (as : List Adj) :
    ∃ c, build { withExtra (newBuilder base common) ps updateProtocol with vkeys := vk, consts := cs, adjs := as } = some c ∧
      c.adjs = as ∧ ∀ g : Lab, search c g = (extraFor ps (protoOf (g.gs (bs "protocol")))).map
        (fun d => Labels.build (base ++ common.flatten ++ d) vk cs) := by
  have hw : withExtra (newBuilder base common) ps updateProtocol =
      ⟨(newBuilder base common).base, ps, ps.map (·.key), [updateProtocol], [], [], []⟩ := by
    unfold withExtra
    exact if_pos rfl
  rw [hw]
  obtain ⟨m, h1, h2⟩ := fill_get ⟨(newBuilder base common).base, ps, ps.map (·.key), [updateProtocol], vk, cs, as⟩ (ps.map (·.key)) 0 []
    (by simp)
  refine ⟨⟨m, [updateProtocol], as⟩, ?_, rfl, fun g => ?_⟩
  · unfold build
    simp only
    rw [show fill _ _ 0 [] = some m from h1]
  · unfold search
    simp only [List.foldl_cons, List.foldl_nil, updateProtocol]
    have hget : ∀ k, m.get k = (ps.find? (fun p => p.key == k)).map (fun p => Labels.build (base ++ common.flatten ++ p.dic) vk cs) := by
      intro k
      rw [h2 k]
      simp only [List.drop_zero, lastOf_nodup ps hn, base_then_common]
      cases ps.find? (fun p => p.key == k) <;> rfl
    rw [hget, hget]
    unfold extraFor
    cases ps.find? (fun q => q.key == some (protoOf (g.gs (bs "protocol")))) with
    | some q => rfl
    | none => simp only [Option.map_none, Option.map_map]; rfl

theorem extraFor_paramsOf (l : List (Proto × List Dict)) (h : (l.lookup .unsupported).isSome) (p : Proto) :
    extraFor (paramsOf l) p = some (match l.lookup p with
      | some d => d
      | none => (l.lookup .unsupported).getD []) := by
  have key : ∀ (l : List (Proto × List Dict)) (p : Proto), ((paramsOf l).find? (fun q => q.key == some p)).map (·.dic) = l.lookup p := by
    intro l p
    induction l with
    | nil => rfl
    | cons e r ih =>
      obtain ⟨x, d⟩ := e
      unfold paramsOf at ih ⊢
      simp only [List.map_cons, List.find?_cons, List.lookup_cons]
      by_cases hx : x = p
      · subst hx; simp
      · have h1 : ((some x : Key) == some p) = false := by simpa using hx
        have h2 : (p == x) = false := by simpa using Ne.symm hx
        simp only [h1, h2]
        exact ih
  have hp := key l p
  have hu := key l .unsupported
  unfold extraFor
  cases hf : (paramsOf l).find? (fun q => q.key == some p) with
  | some q =>
    rw [hf] at hp
    simp only [Option.map_some] at hp
    simp only [← hp]
  | none =>
    rw [hf] at hp
    simp only [Option.map_none] at hp
    simp only [← hp, hu]
    obtain ⟨d, hd⟩ := Option.isSome_iff_exists.1 h
    rw [hd]
    rfl

/-- The converters of `Adapter.lean`, in the order of `manager`. -/
def convs : List Conv :=
  [aggEntitySlow, detailEntitySlow, aggTopologySlow, detailTopologySlow, aggEntity, detailEntity, aggTopology, detailTopology, traceToSpan,
   traceToMetric]

/-- What it is for a builder to make a converter of `Adapter.lean`. -/
def Makes (cs : List (Bytes × Val)) (b : Builder) (c : Conv) : Prop := ∃ k, build b = some k ∧
  (∀ g : Lab, search k g = some (Labels.build (dictOf c (protoOf (g.gs (bs "protocol")))) c.vkeys cs)) ∧
  (∀ g l, adjustAll k.adjs g l = adjustL c.adj g l) ∧ ∀ g m, adjustAllM k.adjs g m = adjustM c.adj g m

theorem makes_of (cs : List (Bytes × Val)) (b : Builder) (base : List Dict) (common : List (List Dict)) (l : List (Proto × List Dict))
    (vk : List Bytes) (as : List Adj) (c : Conv)
    (hb : b = { withExtra (newBuilder base common) (paramsOf l) updateProtocol with vkeys := vk, consts := cs, adjs := as })
    (hn : ((paramsOf l).map (·.key)).Nodup) (hu : (l.lookup .unsupported).isSome) (hc1 : c.base = base ++ common.flatten) (hc2 : c.extra = l)
    (hc3 : c.vkeys = vk) (hc4 : as = match c.adj with
      | .keep => []
      | a => [a]) : Makes cs b c := by
  obtain ⟨k, h1, h2, h3⟩ := built_as_listed base common (paramsOf l) hn vk cs as
  refine ⟨k, by rw [hb]; exact h1, fun g => ?_, fun g x => ?_, fun g x => ?_⟩
  · rw [h3 g, extraFor_paramsOf l hu]
    unfold dictOf
    rw [hc1, hc2, hc3]
    rfl
  · rw [h2, hc4]
    cases c.adj <;> rfl
  · rw [h2, hc4]
    cases c.adj <;> rfl

/-- The ten converters the manager builds are those of `Adapter.lean`: for every group and all constant labels they have the entries, the
value labels and the adjustment given there. -/
theorem manager_makes (cs : List (Bytes × Val)) : All2 (Makes cs) (manager cs) convs := by
  refine All2.cons ?_ (All2.cons ?_ (All2.cons ?_ (All2.cons ?_ (All2.cons ?_ (All2.cons ?_ (All2.cons ?_ (All2.cons ?_ (All2.cons ?_
    (All2.cons ?_ All2.nil)))))))))
  · exact makes_of cs _ entityBase [isSlowDict] entityProtocol [] [] _ rfl (by decide) rfl rfl rfl rfl rfl
  · exact makes_of cs _ entityBase [entityInstance, entityDetail, isSlowDict] entityProtocol [] [] _ rfl (by decide) rfl rfl rfl rfl rfl
  · exact makes_of cs _ topologyBase [isSlowDict] topologyProtocol [] [.removeDst] _ rfl (by decide) rfl rfl rfl rfl rfl
  · exact makes_of cs _ topologyBase [topologyInstance, topologyDetail, isSlowDict] topologyProtocol [] [.replaceNat] _ rfl (by decide) rfl rfl rfl
      rfl rfl
  · exact makes_of cs _ entityBase [] entityProtocol [] [] _ rfl (by decide) rfl rfl rfl rfl rfl
  · exact makes_of cs _ entityBase [entityInstance, entityDetail] entityProtocol [] [] _ rfl (by decide) rfl rfl rfl rfl rfl
  · exact makes_of cs _ topologyBase [] topologyProtocol [] [.removeDst] _ rfl (by decide) rfl rfl rfl rfl rfl
  · exact makes_of cs _ topologyBase [topologyInstance, topologyDetail] topologyProtocol [] [.replaceNat] _ rfl (by decide) rfl rfl rfl rfl rfl
  · exact makes_of cs _ topologyBase [topologyInstance, spanDict, dNat] spanProtocol traceSpanStatus [] _ rfl (by decide) rfl rfl rfl rfl rfl
  · exact makes_of cs _ topologyBase [topologyInstance, topologyDetail, dNat] entityProtocol traceStatus [] _ rfl (by decide) rfl rfl rfl rfl rfl

/-! ### What the builder does not check -/

/-- Without extra labels there is nothing to convert with: every group is a panic. -/
theorem no_extra_panics (base : List Dict) (common : List (List Dict)) (vk : List Bytes) (cs : List (Bytes × Val)) (as : List Adj) :
    ∃ c, build { newBuilder base common with vkeys := vk, consts := cs, adjs := as } = some c ∧ ∀ g, search c g = none :=
  ⟨⟨[], [], as⟩, rfl, fun _ => rfl⟩

/-- Without a parameter for unknown protocols the groups of protocols not listed are a panic. -/
theorem unlisted_panics (base : List Dict) (common : List (List Dict)) (ps : List Param) (hn : (ps.map (·.key)).Nodup)
    (vk : List Bytes) (cs : List (Bytes × Val)) (as : List Adj) (hu : some .unsupported ∉ ps.map (·.key)) (g : Lab)
    (hg : some (protoOf (g.gs (bs "protocol"))) ∉ ps.map (·.key)) :
    ∃ c, build { withExtra (newBuilder base common) ps updateProtocol with vkeys := vk, consts := cs, adjs := as } = some c ∧
      search c g = none := by
  obtain ⟨c, h1, _, h3⟩ := built_as_listed base common ps hn vk cs as
  refine ⟨c, h1, ?_⟩
  have hnone : ∀ k : Key, k ∉ ps.map (·.key) → ps.find? (fun q => q.key == k) = none := by
    intro k hk
    rw [List.find?_eq_none]
    intro q hq
    simp only [beq_iff_eq]
    intro h
    exact hk (List.mem_map.2 ⟨q, hq, h⟩)
  rw [h3 g]
  unfold extraFor
  rw [hnone _ hg, hnone _ hu]
  rfl

/-- The state of `withExtraLabels` on a builder that has extra labels already, all with a protocol. -/
theorem cross_all (keys : List Key) (hk : ∀ k ∈ keys, k ≠ none) : ∀ (ps : List Param) (P : List Param) (OK : List Key) (OP : List Param),
    (ps.foldl cross ((keys, P), (OK, OP))).1.1 = keys ∧
    (ps.foldl cross ((keys, P), (OK, OP))).2.1 = OK ++ (ps.map (fun _ => keys)).flatten ∧
    ∃ mid, (ps.foldl cross ((keys, P), (OK, OP))).2.2 = OP ++ mid ∧ mid.length = P.length * ps.length ∧
      ∀ ini x, ps = ini ++ [x] → ∃ mid', mid = mid' ++ P.map (fun q => { q with dic := q.dic ++ ps.flatMap (·.dic) }) ∧
        mid'.length = P.length * ini.length := by
  have hmk : ∀ o : Key, keys.map (fun k => mergeKey k o) = keys := by
    intro o
    conv => rhs; rw [← List.map_id keys]
    apply List.map_congr_left
    intro k hkm
    cases k with
    | none => exact (hk none hkm rfl).elim
    | some p => rfl
  intro ps
  induction ps with
  | nil =>
    intro P OK OP
    refine ⟨rfl, by simp, [], by simp, by simp, ?_⟩
    intro ini x h
    have := congrArg List.length h
    simp at this
  | cons p r ih =>
    intro P OK OP
    have hc : cross ((keys, P), (OK, OP)) p = ((keys, P.map (fun q => mergeParam q p)), (OK ++ keys, OP ++ P.map (fun q => mergeParam q p))) := by
      unfold cross
      simp only [hmk]
    simp only [List.foldl_cons, hc]
    obtain ⟨h1, h2, mid, h3, h4, h5⟩ := ih (P.map (fun q => mergeParam q p)) (OK ++ keys) (OP ++ P.map (fun q => mergeParam q p))
    refine ⟨h1, by rw [h2]; simp, P.map (fun q => mergeParam q p) ++ mid, by rw [h3]; simp, ?_, ?_⟩
    · simp only [List.length_append, List.length_map, h4, List.length_cons]
      rw [Nat.mul_add]
      omega
    · intro ini x hx
      cases ini with
      | nil =>
        simp only [List.nil_append, List.cons.injEq] at hx
        obtain ⟨rfl, rfl⟩ := hx
        refine ⟨[], ?_, by simp⟩
        have : mid = [] := List.eq_nil_of_length_eq_zero (by rw [h4]; simp)
        subst this
        simp [mergeParam]
      | cons y ini =>
        simp only [List.cons_append, List.cons.injEq] at hx
        obtain ⟨rfl, rfl⟩ := hx
        obtain ⟨mid', h6, h7⟩ := h5 ini x rfl
        refine ⟨P.map (fun q => mergeParam q p) ++ mid', ?_, ?_⟩
        · rw [h6]
          simp [mergeParam, List.flatMap_append]
        · simp only [List.length_append, List.length_map, h7, List.length_cons]
          rw [Nat.mul_add]
          omega

/-- Extra labels given a second time are not combined with the first: a group gets the entries of its first parameter and those of all the
second ones at once, whatever the second function would have said of it, which is never asked. -/
theorem second_extra_all_at_once (base : List Dict) (common : List (List Dict)) (ps : List Param) (hn : (ps.map (·.key)).Nodup)
    (hsome : ∀ p ∈ ps, p.key ≠ none) (ini : List Param) (x : Param) (u : Update) (vk : List Bytes) (cs : List (Bytes × Val)) (as : List Adj)
    (hne : ps ≠ []) :
    ∃ c, build { withExtra (withExtra (newBuilder base common) ps updateProtocol) (ini ++ [x]) u with vkeys := vk, consts := cs, adjs := as } =
        some c ∧ c.updates = [updateProtocol] ∧ ∀ g : Lab, search c g = (extraFor ps (protoOf (g.gs (bs "protocol")))).map
          (fun d => Labels.build (base ++ common.flatten ++ (d ++ (ini ++ [x]).flatMap (·.dic))) vk cs) := by
  have hw : withExtra (newBuilder base common) ps updateProtocol =
      ⟨(newBuilder base common).base, ps, ps.map (·.key), [updateProtocol], [], [], []⟩ := by
    unfold withExtra
    exact if_pos rfl
  have hkeys : ∀ k ∈ ps.map (·.key), k ≠ none := by
    intro k hk
    obtain ⟨p, hp, rfl⟩ := List.mem_map.1 hk
    exact hsome p hp
  have hne' : ¬ ps.map (·.key) = [] := by simpa using hne
  obtain ⟨_, h2, mid, h3, _, h5⟩ := cross_all (ps.map (·.key)) hkeys (ini ++ [x]) ps
    (List.replicate ((ps.map (·.key)).length * (ini ++ [x]).length) none) (List.replicate (ps.length * (ini ++ [x]).length) ⟨[], none⟩)
  obtain ⟨mid', h6, h7⟩ := h5 ini x rfl
  generalize hK0 : List.replicate ((ps.map (·.key)).length * (ini ++ [x]).length) (none : Key) ++ (ini.map (fun _ => ps.map (·.key))).flatten = K0
  generalize hP0 : List.replicate (ps.length * (ini ++ [x]).length) (⟨[], none⟩ : Param) ++ mid' = P0
  have hlen : K0.length = P0.length := by
    have hfl : ∀ (l : List Param), ((l.map (fun _ => ps.map (·.key))).flatten).length = ps.length * l.length := by
      intro l
      induction l with
      | nil => simp
      | cons a r ih =>
        simp only [List.map_cons, List.flatten_cons, List.length_append, ih, List.length_map, List.length_cons]
        rw [Nat.mul_add]
        omega
    rw [← hK0, ← hP0]
    simp only [List.length_append, List.length_replicate, List.length_map, hfl, h7]
  have hw2 : withExtra (withExtra (newBuilder base common) ps updateProtocol) (ini ++ [x]) u =
      ⟨(newBuilder base common).base, P0 ++ ps.map (fun q => { q with dic := q.dic ++ (ini ++ [x]).flatMap (·.dic) }),
        K0 ++ ps.map (·.key), [updateProtocol], [], [], []⟩ := by
    rw [hw]
    unfold withExtra
    simp only [if_neg hne']
    rw [h2, h3, h6, ← hK0, ← hP0]
    simp only [List.map_append, List.map_cons, List.map_nil, List.flatten_append, List.flatten_cons, List.flatten_nil, List.append_nil,
      List.append_assoc]
  rw [hw2]
  obtain ⟨m, g1, g2⟩ := fill_get ⟨(newBuilder base common).base, P0 ++ ps.map (fun q => { q with dic := q.dic ++ (ini ++ [x]).flatMap (·.dic) }),
    K0 ++ ps.map (·.key), [updateProtocol], vk, cs, as⟩ (K0 ++ ps.map (·.key)) 0 [] (by simp [hlen])
  refine ⟨⟨m, [updateProtocol], as⟩, ?_, rfl, fun g => ?_⟩
  · unfold build
    simp only
    rw [show fill _ _ 0 [] = some m from g1]
  · unfold search
    simp only [List.foldl_cons, List.foldl_nil, updateProtocol]
    have hK0mem : ∀ p : Proto, some p ∈ K0 → some p ∈ ps.map (·.key) := by
      intro p hp
      rw [← hK0] at hp
      rcases List.mem_append.1 hp with h | h
      · have := List.eq_of_mem_replicate h
        cases this
      · obtain ⟨l, hl, hpl⟩ := List.mem_flatten.1 h
        obtain ⟨_, _, rfl⟩ := List.mem_map.1 hl
        exact hpl
    have hget : ∀ p : Proto, m.get (some p) = (ps.find? (fun q => q.key == some p)).map
        (fun q => Labels.build (base ++ common.flatten ++ (q.dic ++ (ini ++ [x]).flatMap (·.dic))) vk cs) := by
      intro p
      rw [g2 (some p)]
      simp only [List.drop_zero, base_then_common]
      rw [List.zip_append hlen]
      have hz := lastOf_nodup (ps.map (fun q => { q with dic := q.dic ++ (ini ++ [x]).flatMap (·.dic) })) (by
        rw [List.map_map]; exact hn) (some p)
      rw [List.map_map] at hz
      rw [List.find?_map] at hz
      unfold lastOf at hz ⊢
      rw [List.reverse_append, List.find?_append]
      change Option.map _ (List.find? _ (((ps.map (·.key)).zip _).reverse)) = _ at hz
      change _ = Option.map _ (List.find? (fun q : Param => q.key == some p) ps) at hz
      cases hf : ps.find? (fun q => q.key == some p) with
      | some q =>
        rw [hf] at hz
        simp only [Option.map_some, Option.map_eq_some_iff] at hz
        obtain ⟨e, he1, he2⟩ := hz
        rw [he1]
        simp only [Option.some_or, Option.map_some, he2]
      | none =>
        rw [hf] at hz
        simp only [Option.map_none, Option.map_eq_none_iff] at hz
        rw [hz]
        have hnk : some p ∉ ps.map (·.key) := by
          intro h
          obtain ⟨q, hq, hqk⟩ := List.mem_map.1 h
          have := (List.find?_eq_none.1 hf) q hq
          simp [hqk] at this
        have : (K0.zip P0).reverse.find? (fun e => e.1 == some p) = none := by
          rw [List.find?_eq_none]
          intro e he
          simp only [beq_iff_eq]
          intro h
          have := (List.of_mem_zip (List.mem_reverse.1 he)).1
          rw [h] at this
          exact hnk (hK0mem p this)
        rw [this]
        rfl
    rw [hget, hget]
    unfold extraFor
    cases ps.find? (fun q => q.key == some (protoOf (g.gs (bs "protocol")))) with
    | some q => rfl
    | none => simp only [Option.map_none, Option.map_map]; rfl

/-! ### Example -/

def color : Param := ⟨[⟨bs "color", bs "color", .string⟩], some .http⟩
def other : Param := ⟨[⟨bs "other", bs "other", .string⟩], some .unsupported⟩
def shape : Param := ⟨[⟨bs "shape", bs "shape", .string⟩], some .http⟩
def size : Param := ⟨[⟨bs "size", bs "size", .string⟩], some .dns⟩

/-- After a second call a group of HTTP has the labels of both second parameters. -/
example (g : Lab) (h : g.gs (bs "protocol") = bs "http") : ∃ c, build (withExtra (withExtra (newBuilder [] []) [color, other] updateProtocol)
    [shape, size] updateProtocol) = some c ∧ (search c g).map (·.dict.map (·.newKey)) = some [bs "color", bs "shape", bs "size"] := by
  obtain ⟨c, h1, _, h3⟩ := second_extra_all_at_once [] [] [color, other] (by decide) (by decide) [shape] size updateProtocol [] [] [] (by simp)
  refine ⟨c, h1, ?_⟩
  rw [h3 g, h]
  rfl

/-- Parameters without the default: a group of DNS finds nothing. -/
example (g : Lab) (h : g.gs (bs "protocol") = bs "dns") : ∃ c, build (withExtra (newBuilder [] []) [color] updateProtocol) = some c ∧
    search c g = none := by
  obtain ⟨c, h1, h2⟩ := unlisted_panics [] [] [color] (by decide) [] [] [] (by decide) g (by rw [h]; decide)
  exact ⟨c, h1, h2⟩

end Kindling.Export.Builder
