import Verif.Dec
/-
Labels of exported metrics and spans.  component/consumer/exporter/tools/adapter/label_converter.go, net_dict.go.

Simplified: the labels of a group are three functions, the results of `GetStringValue`, `GetIntValue` and
`GetBoolValue` for each name.
-/
namespace Kindling.Export.Labels

/-- A value of an attribute; `invalid` is the zero `attribute.Value`. -/
inductive Val
  | str (s : Bytes)
  | int (n : Int)
  | bool (b : Bool)
  | invalid
deriving DecidableEq

/-- `valueType` (net_dict.go:28-36). -/
inductive VT
  | int64 | string | bool | strEmpty | fromInt | fromError | fromErrorStatus
deriving DecidableEq

/-- `dictionary` (net_dict.go:45-49). -/
structure Dict where
  newKey : Bytes
  originKey : Bytes
  vt : VT
deriving DecidableEq

structure Lab where
  gs : Bytes → Bytes
  gi : Bytes → Int
  gb : Bytes → Bool

/-- `strconv.FormatInt(n, 10)`. -/
def itoa (n : Int) : Bytes := if n < 0 then bs "-" ++ Dec.digits n.natAbs else Dec.digits n.natAbs

def errorType : Bytes := bs "error_type"

/-- The value of an entry (label_converter.go:288-313 and 355-380, the same switch twice); `ProtocolError` is 3. -/
def entryVal (l : Lab) (d : Dict) : Val :=
  match d.vt with
  | .string => .str (l.gs d.originKey)
  | .int64 => .int (l.gi d.originKey)
  | .bool => .bool (l.gb d.originKey)
  | .fromInt => .str (itoa (l.gi d.originKey))
  | .fromError => if l.gi errorType = 3 then .str (bs "error") else .str (bs "noerror")
  | .fromErrorStatus => if l.gi errorType = 3 then .str (bs "1") else .str (bs "0")
  | .strEmpty => .str []

/-! ### Sorting -/

/-- Order of Go strings. -/
def leB : Bytes → Bytes → Bool
  | [], _ => true
  | _ :: _, [] => false
  | a :: x, b :: y => if a = b then leB x y else decide (a < b)

def ins (k : Bytes) : List Bytes → List Bytes
  | [] => [k]
  | x :: r => if leB k x then k :: x :: r else x :: ins k r

/-- `sort.Strings`; the result does not depend on the algorithm. -/
def sortB : List Bytes → List Bytes
  | [] => []
  | x :: r => ins x (sortB r)

theorem leB_refl (x : Bytes) : leB x x = true := by
  induction x with
  | nil => rfl
  | cons a r ih => simp [leB, ih]

theorem leB_total (x y : Bytes) : leB x y = true ∨ leB y x = true := by
  induction x generalizing y with
  | nil => simp [leB]
  | cons a r ih =>
    cases y with
    | nil => simp [leB]
    | cons b s =>
      simp only [leB]
      by_cases h : a = b
      · subst h; simpa using ih s
      · rw [if_neg h, if_neg (Ne.symm h)]
        simp only [decide_eq_true_eq]
        have : a.toNat ≠ b.toNat := fun he => h (UInt8.toNat_inj.1 he)
        simp only [UInt8.lt_iff_toNat_lt]
        omega

theorem leB_trans (x y z : Bytes) (h1 : leB x y = true) (h2 : leB y z = true) : leB x z = true := by
  induction x generalizing y z with
  | nil => rfl
  | cons a r ih =>
    cases y with
    | nil => simp [leB] at h1
    | cons b s =>
      cases z with
      | nil => simp [leB] at h2
      | cons c t =>
        simp only [leB] at *
        by_cases hab : a = b
        · subst hab
          rw [if_pos rfl] at h1
          by_cases hac : a = c
          · subst hac; rw [if_pos rfl] at h2 ⊢; exact ih s t h1 h2
          · rw [if_neg hac] at h2 ⊢; exact h2
        · rw [if_neg hab] at h1
          by_cases hbc : b = c
          · subst hbc; rw [if_neg hab]; exact h1
          · rw [if_neg hbc] at h2
            simp only [decide_eq_true_eq, UInt8.lt_iff_toNat_lt] at h1 h2
            have hac : a ≠ c := by rintro rfl; omega
            rw [if_neg hac]
            simp only [decide_eq_true_eq, UInt8.lt_iff_toNat_lt]
            omega

theorem leB_antisymm (x y : Bytes) (h1 : leB x y = true) (h2 : leB y x = true) : x = y := by
  induction x generalizing y with
  | nil => cases y with
    | nil => rfl
    | cons b s => simp [leB] at h2
  | cons a r ih =>
    cases y with
    | nil => simp [leB] at h1
    | cons b s =>
      simp only [leB] at *
      by_cases hab : a = b
      · subst hab; simp at h1 h2; rw [ih s h1 h2]
      · rw [if_neg hab] at h1
        rw [if_neg (Ne.symm hab)] at h2
        simp only [decide_eq_true_eq, UInt8.lt_iff_toNat_lt] at h1 h2
        omega

theorem ins_perm (k : Bytes) (l : List Bytes) : (ins k l).Perm (k :: l) := by
  induction l with
  | nil => exact List.Perm.refl _
  | cons x r ih =>
    unfold ins
    split
    · exact List.Perm.refl _
    · exact (List.Perm.cons x ih).trans (List.Perm.swap k x r)

theorem sortB_perm (l : List Bytes) : (sortB l).Perm l := by
  induction l with
  | nil => exact List.Perm.refl _
  | cons x r ih => exact (ins_perm x (sortB r)).trans (List.Perm.cons x ih)

theorem ins_sorted (k : Bytes) (l : List Bytes) (h : l.Pairwise (fun a b => leB a b = true)) :
    (ins k l).Pairwise (fun a b => leB a b = true) := by
  induction l with
  | nil => simp [ins]
  | cons x r ih =>
    rw [List.pairwise_cons] at h
    unfold ins
    split
    · rename_i hk
      rw [List.pairwise_cons]
      refine ⟨fun y hy => ?_, List.pairwise_cons.2 h⟩
      rcases List.mem_cons.1 hy with rfl | hy
      · exact hk
      · exact leB_trans _ _ _ hk (h.1 y hy)
    · rename_i hk
      rw [List.pairwise_cons]
      refine ⟨fun y hy => ?_, ih h.2⟩
      have : y ∈ k :: r := (ins_perm k r).mem_iff.1 hy
      rcases List.mem_cons.1 this with rfl | hy
      · rcases leB_total y x with h' | h'
        · exact absurd h' hk
        · exact h'
      · exact h.1 y hy

theorem sortB_sorted (l : List Bytes) : (sortB l).Pairwise (fun a b => leB a b = true) := by
  induction l with
  | nil => simp [sortB]
  | cons x r ih => exact ins_sorted x _ ih

/-! ### Building a converter -/

/-- Position and value of the first attribute with a key (label_converter.go:246-252). -/
def find : List (Bytes × Val) → Bytes → Nat → Option (Nat × (Bytes × Val))
  | [], _, _ => none
  | p :: r, k, i => if k = p.1 then some (i, p) else find r k (i + 1)

/-- The double loop (label_converter.go:245-253): `sortCache` and `realParamList`. -/
def loop (ps : List (Bytes × Val)) : List Bytes → Nat → AMap Nat Nat → List (Bytes × Val) → AMap Nat Nat × List (Bytes × Val)
  | [], _, m, t => (m, t)
  | k :: r, s, m, t => match find ps k 0 with
    | none => loop ps r (s + 1) m (t ++ [([], .invalid)])
    | some (j, p) => loop ps r (s + 1) (m.set j s) (t ++ [p])

/-- `realAttributes` (label_converter.go:41-49), the part for lists and the part for maps. -/
structure Real where
  dict : List Dict
  sortMap : AMap Nat Nat
  template : List (Bytes × Val)
  mapTemplate : AMap Bytes Val

/-- All attributes of a converter before sorting (label_converter.go:210-234). -/
def params (dict : List Dict) (vkeys : List Bytes) (consts : List (Bytes × Val)) : List (Bytes × Val) :=
  dict.map (fun d => (d.newKey, .invalid)) ++ vkeys.map (fun k => (k, .invalid)) ++ consts

/-- `build` for one key (label_converter.go:204-273); `dict` are the common and the extra entries. -/
def build (dict : List Dict) (vkeys : List Bytes) (consts : List (Bytes × Val)) : Real :=
  let ps := params dict vkeys consts
  let r := loop ps (sortB (ps.map (·.1))) 0 [] []
  { dict := dict, sortMap := r.1, template := r.2, mapTemplate := consts.foldl (fun m kv => m.set kv.1 kv.2) [] }

/-- `attrsList[i].Value = v`.  The index is in range whenever the list is not empty. -/
def setVal (l : List (Bytes × Val)) (i : Nat) (v : Val) : List (Bytes × Val) := l.modify i (fun p => (p.1, v))

/-- One run of assignments, `i` counting from `i0`: `attrsList[sortMap[i]].Value = v`; a missing index is 0. -/
def assign (m : AMap Nat Nat) : List Val → Nat → List (Bytes × Val) → List (Bytes × Val)
  | [], _, l => l
  | v :: r, i, l => assign m r (i + 1) (setVal l ((m.get i).getD 0) v)

/-- `convert` without the adjustments (label_converter.go:351-387); `l` comes from the pool, `vals` from
`valueLabelsFunc`; the value of a metric that is missing is `invalid` (its key, empty in the code, is not used here). -/
def convert (r : Real) (g : Lab) (vals : List (Bytes × Val)) (l : List (Bytes × Val)) : List (Bytes × Val) :=
  assign r.sortMap (vals.map (·.2)) r.dict.length (assign r.sortMap (r.dict.map (entryVal g)) 0 l)

/-- Values of no valid type are not added (label_converter.go:317-326). -/
def addVal (m : AMap Bytes Val) (kv : Bytes × Val) : AMap Bytes Val :=
  match kv.2 with
  | .invalid => m
  | v => m.set kv.1 v

/-- `transform` without the adjustments (label_converter.go:284-327). -/
def transform (r : Real) (g : Lab) (vals : List (Bytes × Val)) (m : AMap Bytes Val) : AMap Bytes Val :=
  vals.foldl addVal (r.dict.foldl (fun m d => m.set d.newKey (entryVal g d)) m)

/-! ### Spec -/

/-- The attributes a group should have. -/
def wanted (dict : List Dict) (consts : List (Bytes × Val)) (g : Lab) (vals : List (Bytes × Val)) : List (Bytes × Val) :=
  dict.map (fun d => (d.newKey, entryVal g d)) ++ vals ++ consts

/-! ### Distinct keys -/

theorem find_spec (ps : List (Bytes × Val)) (k : Bytes) (i : Nat) :
    match find ps k i with
    | none => k ∉ ps.map (·.1)
    | some (j, p) => ∃ n : Nat, j = i + n ∧ ps[n]? = some p ∧ p.1 = k ∧ ∀ n' : Nat, n' < n → (ps[n']?).map (·.1) ≠ some k := by
  induction ps generalizing i with
  | nil => simp [find]
  | cons p r ih =>
    unfold find
    by_cases h : k = p.1
    · rw [if_pos h]
      exact ⟨0, rfl, rfl, h.symm, fun n' hn => absurd hn (Nat.not_lt_zero _)⟩
    · rw [if_neg h]
      have := ih (i + 1)
      split at this
      · simp only [List.map_cons, List.mem_cons, not_or]; exact ⟨h, this⟩
      · obtain ⟨n, h1, h2, h3, h4⟩ := this
        refine ⟨n + 1, by omega, by simpa using h2, h3, fun n' hn => ?_⟩
        cases n' with
        | zero => simp; exact Ne.symm h
        | succ n' => simpa using h4 n' (by omega)

theorem loop_template (ps : List (Bytes × Val)) (ks : List Bytes) (hk : ∀ k ∈ ks, k ∈ ps.map (·.1)) (s : Nat)
    (m : AMap Nat Nat) (t : List (Bytes × Val)) :
    (loop ps ks s m t).2 = t ++ ks.map (fun k => (k, (AMap.get ps k).getD .invalid)) := by
  induction ks generalizing s m t with
  | nil => simp [loop]
  | cons k r ih =>
    have hf := find_spec ps k 0
    unfold loop
    have hget : ∀ (ps : List (Bytes × Val)) (i : Nat) j p, find ps k i = some (j, p) → p = (k, (AMap.get ps k).getD .invalid) := by
      intro ps
      induction ps with
      | nil => intro i j p h; simp [find] at h
      | cons q r ih2 =>
        intro i j p h
        unfold find at h
        by_cases hq : k = q.1
        · rw [if_pos hq] at h
          simp only [Option.some.injEq, Prod.mk.injEq] at h
          obtain ⟨_, rfl⟩ := h
          obtain ⟨q1, q2⟩ := q
          simp only at hq
          subst hq
          simp [AMap.get]
        · rw [if_neg hq] at h
          have := ih2 (i + 1) j p h
          obtain ⟨q1, q2⟩ := q
          simp only [AMap.get]
          rw [if_neg (fun h => hq h.symm)]
          exact this
    split
    · rename_i heq
      rw [heq] at hf
      exact absurd (hk k (by simp)) hf
    · rename_i j p heq
      rw [ih (fun k' hk' => hk k' (by simp [hk']))]
      rw [hget ps 0 j p heq]
      simp

/-- Positions of keys that occur once. -/
theorem loop_sortMap (ps : List (Bytes × Val)) (hn : (ps.map (·.1)).Nodup) (ks : List Bytes) (hks : ks.Nodup)
    (hk : ∀ k ∈ ks, k ∈ ps.map (·.1)) (s : Nat) (m : AMap Nat Nat) (t : List (Bytes × Val)) (j : Nat) (p : Bytes × Val)
    (hj : ps[j]? = some p) :
    (p.1 ∈ ks → ∃ n : Nat, (loop ps ks s m t).1.get j = some (s + n) ∧ ks[n]? = some p.1) ∧
    (p.1 ∉ ks → (loop ps ks s m t).1.get j = m.get j) := by
  induction ks generalizing s m t with
  | nil => simp [loop]
  | cons k r ih =>
    rw [List.nodup_cons] at hks
    have hf := find_spec ps k 0
    unfold loop
    split
    · rename_i heq
      rw [heq] at hf
      exact absurd (hk k (by simp)) hf
    · rename_i j' p' heq
      rw [heq] at hf
      obtain ⟨n, h1, h2, h3, h4⟩ := hf
      have h1' : j' = n := by omega
      subst h1'
      have ih' := ih hks.2 (fun k' hk' => hk k' (by simp [hk'])) (s + 1) (m.set j' s) (t ++ [p'])
      have huniq : p.1 = k ↔ j = j' := by
        constructor
        · intro hpk
          have e1 : (ps.map (·.1))[j]? = some k := by simp [hj, hpk]
          have e2 : (ps.map (·.1))[j']? = some k := by simp [h2, h3]
          have l1 : j < (ps.map (·.1)).length := (List.getElem?_eq_some_iff.1 e1).1
          exact (List.getElem?_inj l1 hn).1 (e1.trans e2.symm)
        · rintro rfl
          rw [hj] at h2
          simp only [Option.some.injEq] at h2
          rw [h2]; exact h3
      constructor
      · intro hm
        by_cases hpk : p.1 = k
        · refine ⟨0, ?_, by simp [hpk]⟩
          rw [ih'.2 (by rw [hpk]; exact hks.1), huniq.1 hpk]
          simp
        · have : p.1 ∈ r := by simpa [hpk] using hm
          obtain ⟨n, e1, e2⟩ := ih'.1 this
          exact ⟨n + 1, by rw [e1]; congr 1; omega, by simpa using e2⟩
      · intro hm
        simp only [List.mem_cons, not_or] at hm
        rw [ih'.2 hm.2, AMap.get_set_ne]
        intro h
        exact hm.1 (huniq.2 h.symm)

theorem params_keys (dict : List Dict) (vkeys : List Bytes) (consts : List (Bytes × Val)) :
    (params dict vkeys consts).map (·.1) = dict.map (·.newKey) ++ vkeys ++ consts.map (·.1) := by
  simp [params, Function.comp_def]

/-- Lists over fixed keys are functions of the key. -/
theorem setVal_map (ks : List Bytes) (hn : ks.Nodup) (f : Bytes → Val) (n : Nat) (k : Bytes) (hk : ks[n]? = some k) (v : Val) :
    setVal (ks.map (fun x => (x, f x))) n v = ks.map (fun x => (x, if x = k then v else f x)) := by
  unfold setVal
  apply List.ext_getElem?
  intro i
  rw [List.getElem?_modify]
  simp only [List.getElem?_map]
  by_cases hin : n = i
  · subst hin
    simp [hk]
  · simp only [if_neg hin]
    cases hx : ks[i]? with
    | none => simp
    | some x =>
      have : x ≠ k := by
        rintro rfl
        have l1 : n < ks.length := (List.getElem?_eq_some_iff.1 hk).1
        exact hin ((List.getElem?_inj l1 hn).1 (hk.trans hx.symm))
      simp [this]

theorem assign_map (ks : List Bytes) (hn : ks.Nodup) (m : AMap Nat Nat) (kvs : List (Bytes × Val)) (i0 : Nat)
    (hpos : ∀ (i : Nat) kv, kvs[i]? = some kv → ∃ n : Nat, m.get (i0 + i) = some n ∧ ks[n]? = some kv.1) (f : Bytes → Val) :
    assign m (kvs.map (·.2)) i0 (ks.map (fun x => (x, f x))) =
      ks.map (fun x => (x, (kvs.foldl (fun (f : Bytes → Val) kv => fun x => if x = kv.1 then kv.2 else f x) f) x)) := by
  induction kvs generalizing i0 f with
  | nil => rfl
  | cons kv r ih =>
    obtain ⟨n, h1, h2⟩ := hpos 0 kv rfl
    simp only [List.map_cons, assign]
    have h1' : m.get i0 = some n := by simpa using h1
    rw [h1', Option.getD_some, setVal_map ks hn f n kv.1 h2]
    rw [ih]
    · rfl
    · intro i kv' hi
      obtain ⟨n', g1, g2⟩ := hpos (i + 1) kv' (by simpa using hi)
      exact ⟨n', by rw [← g1]; congr 1; omega, g2⟩

theorem fold_update (kvs : List (Bytes × Val)) (hn : (kvs.map (·.1)).Nodup) (f : Bytes → Val) :
    (∀ k v, (k, v) ∈ kvs → (kvs.foldl (fun (f : Bytes → Val) kv => fun x => if x = kv.1 then kv.2 else f x) f) k = v) ∧
    (∀ k, k ∉ kvs.map (·.1) → (kvs.foldl (fun (f : Bytes → Val) kv => fun x => if x = kv.1 then kv.2 else f x) f) k = f k) := by
  induction kvs generalizing f with
  | nil => exact ⟨fun k v h => (by cases h), fun k _ => rfl⟩
  | cons kv r ih =>
    simp only [List.map_cons, List.nodup_cons] at hn
    obtain ⟨h1, h2⟩ := ih hn.2 (fun x => if x = kv.1 then kv.2 else f x)
    refine ⟨fun k v h => ?_, fun k h => ?_⟩
    · rcases List.mem_cons.1 h with rfl | h
      · rw [List.foldl_cons, h2 _ hn.1]; simp
      · exact h1 k v h
    · simp only [List.map_cons, List.mem_cons, not_or] at h
      rw [List.foldl_cons, h2 k h.2]
      simp [h.1]

/-- A list the pool may hold: the keys of the template and the values of the constant labels. -/
def Pooled (dict : List Dict) (vkeys : List Bytes) (consts : List (Bytes × Val)) (l : List (Bytes × Val)) : Prop :=
  l.map (·.1) = sortB ((params dict vkeys consts).map (·.1)) ∧ ∀ kv ∈ consts, kv ∈ l

theorem get_of_first {ps : AMap Bytes Val} (hn : (ps.map (·.1)).Nodup) {k : Bytes} {v : Val} (h : (k, v) ∈ ps) :
    AMap.get ps k = some v := AMap.get_of_mem hn h

/-- A new list is one the pool may hold. -/
theorem template_pooled (dict : List Dict) (vkeys : List Bytes) (consts : List (Bytes × Val))
    (hn : (dict.map (·.newKey) ++ vkeys ++ consts.map (·.1)).Nodup) :
    Pooled dict vkeys consts (build dict vkeys consts).template := by
  have hps : ((params dict vkeys consts).map (·.1)).Nodup := by rw [params_keys]; exact hn
  have ht : (build dict vkeys consts).template =
      (sortB ((params dict vkeys consts).map (·.1))).map (fun k => (k, (AMap.get (params dict vkeys consts) k).getD .invalid)) := by
    unfold build
    simp only
    rw [loop_template _ _ (fun k hk => (sortB_perm _).mem_iff.1 hk)]
    simp
  rw [ht]
  constructor
  · simp [Function.comp_def]
  · rintro ⟨k, v⟩ hkv
    have hmem : (k, v) ∈ params dict vkeys consts := by unfold params; simp [hkv]
    rw [List.mem_map]
    refine ⟨k, (sortB_perm _).mem_iff.2 (List.mem_map.2 ⟨_, hmem, rfl⟩), ?_⟩
    rw [get_of_first hps hmem]
    rfl

/-- C50.  For dictionaries with distinct keys, whatever list the pool gives, the converted list is sorted by key and
consists of exactly the wanted attributes; it can go back to the pool. -/
theorem converted_list (dict : List Dict) (vkeys : List Bytes) (consts : List (Bytes × Val))
    (hn : (dict.map (·.newKey) ++ vkeys ++ consts.map (·.1)).Nodup) (g : Lab) (vals : List (Bytes × Val))
    (hv : vals.map (·.1) = vkeys) (l : List (Bytes × Val)) (hl : Pooled dict vkeys consts l) :
    let out := convert (build dict vkeys consts) g vals l
    (out.map (·.1)).Pairwise (fun a b => leB a b = true) ∧ (out.map (·.1)).Nodup ∧
    (∀ kv, kv ∈ out ↔ kv ∈ wanted dict consts g vals) ∧ Pooled dict vkeys consts out := by
  intro out
  have hps : ((params dict vkeys consts).map (·.1)).Nodup := by rw [params_keys]; exact hn
  have hks : (sortB ((params dict vkeys consts).map (·.1))).Nodup := (sortB_perm _).nodup_iff.2 hps
  generalize hks_def : sortB ((params dict vkeys consts).map (·.1)) = ks at *
  have hmemks : ∀ k, k ∈ ks ↔ k ∈ (params dict vkeys consts).map (·.1) := by
    intro k; rw [← hks_def]; exact (sortB_perm _).mem_iff
  obtain ⟨hl1, hl2⟩ := hl
  rw [hks_def] at hl1
  have hlw : AMap.WF l := by unfold AMap.WF AMap.keys; rw [hl1]; exact hks
  have hlf : l = ks.map (fun x => (x, (AMap.get l x).getD .invalid)) := by
    rw [← hl1]
    rw [List.map_map]
    conv => lhs; rw [← List.map_id l]
    apply List.map_congr_left
    rintro ⟨k, v⟩ hkv
    simp [AMap.get_of_mem hlw hkv]
  have hsm : ∀ (j : Nat) p, (params dict vkeys consts)[j]? = some p →
      ∃ n : Nat, (build dict vkeys consts).sortMap.get j = some n ∧ ks[n]? = some p.1 := by
    intro j p hj
    have := (loop_sortMap (params dict vkeys consts) hps ks hks (fun k hk => (hmemks k).1 hk) 0 [] [] j p hj).1
      ((hmemks p.1).2 (List.mem_map.2 ⟨p, List.mem_of_getElem? hj, rfl⟩))
    obtain ⟨n, e1, e2⟩ := this
    refine ⟨n, ?_, e2⟩
    unfold build
    simp only
    rw [hks_def, e1]
    simp
  have hdict : (build dict vkeys consts).dict = dict := rfl
  have hA : assign (build dict vkeys consts).sortMap (dict.map (entryVal g)) 0 l = ks.map (fun x => (x,
      ((dict.map (fun d => (d.newKey, entryVal g d))).foldl (fun (f : Bytes → Val) kv => fun x => if x = kv.1 then kv.2 else f x)
        (fun x => (AMap.get l x).getD .invalid)) x)) := by
    conv => lhs; rw [hlf]
    have e : dict.map (entryVal g) = (dict.map (fun d => (d.newKey, entryVal g d))).map (·.2) := by simp [Function.comp_def]
    rw [e]
    apply assign_map ks hks
    intro i kv hi
    simp only [List.getElem?_map, Option.map_eq_some_iff] at hi
    obtain ⟨d, hd, rfl⟩ := hi
    have hlt : i < dict.length := (List.getElem?_eq_some_iff.1 hd).1
    have : (params dict vkeys consts)[0 + i]? = some (d.newKey, .invalid) := by
      unfold params
      rw [List.append_assoc, List.getElem?_append_left (by simpa using hlt)]
      simp [hd]
    exact hsm _ (d.newKey, .invalid) this
  have hB : out = ks.map (fun x => (x, (vals.foldl (fun (f : Bytes → Val) kv => fun x => if x = kv.1 then kv.2 else f x)
      ((dict.map (fun d => (d.newKey, entryVal g d))).foldl (fun (f : Bytes → Val) kv => fun x => if x = kv.1 then kv.2 else f x)
        (fun x => (AMap.get l x).getD .invalid))) x)) := by
    show convert _ g vals l = _
    unfold convert
    rw [hdict, hA]
    apply assign_map ks hks
    intro i kv hi
    have hlt : i < vals.length := (List.getElem?_eq_some_iff.1 hi).1
    have hlt2 : i < vkeys.length := by rw [← hv]; simpa using hlt
    have : (params dict vkeys consts)[dict.length + i]? = some (kv.1, .invalid) := by
      unfold params
      rw [List.append_assoc, List.getElem?_append_right (by simp)]
      simp only [List.length_map, Nat.add_sub_cancel_left]
      rw [List.getElem?_append_left (by simpa using hlt2)]
      rw [← hv]
      simp [hi]
    exact hsm _ (kv.1, .invalid) this
  have hfold : (vals.foldl (fun (f : Bytes → Val) kv => fun x => if x = kv.1 then kv.2 else f x)
      ((dict.map (fun d => (d.newKey, entryVal g d))).foldl (fun (f : Bytes → Val) kv => fun x => if x = kv.1 then kv.2 else f x)
        (fun x => (AMap.get l x).getD .invalid))) = ((dict.map (fun d => (d.newKey, entryVal g d)) ++ vals).foldl
        (fun (f : Bytes → Val) kv => fun x => if x = kv.1 then kv.2 else f x) (fun x => (AMap.get l x).getD .invalid)) := by
    rw [List.foldl_append]
  rw [hfold] at hB
  have hn2 : ((dict.map (fun d => (d.newKey, entryVal g d)) ++ vals).map (·.1)).Nodup := by
    have : (dict.map (fun d => (d.newKey, entryVal g d)) ++ vals).map (·.1) = dict.map (·.newKey) ++ vkeys := by
      simp [Function.comp_def, hv]
    rw [this]
    exact (List.nodup_append.1 hn).1
  obtain ⟨u1, u2⟩ := fold_update _ hn2 (fun x => (AMap.get l x).getD .invalid)
  have hkout : out.map (·.1) = ks := by rw [hB]; simp [Function.comp_def]
  have hwk : ∀ k, k ∈ ks ↔ k ∈ (wanted dict consts g vals).map (·.1) := by
    intro k
    rw [hmemks, params_keys]
    simp [wanted, ← hv, Function.comp_def]
  have hconst : ∀ k v, (k, v) ∈ consts → k ∉ (dict.map (fun d => (d.newKey, entryVal g d)) ++ vals).map (·.1) := by
    intro k v hkv hc
    have e : (dict.map (fun d => (d.newKey, entryVal g d)) ++ vals).map (·.1) = dict.map (·.newKey) ++ vkeys := by
      simp [Function.comp_def, hv]
    rw [e] at hc
    exact (List.nodup_append.1 hn).2.2 k hc k (List.mem_map.2 ⟨_, hkv, rfl⟩) rfl
  have hval : ∀ k v, (k, v) ∈ wanted dict consts g vals → ((dict.map (fun d => (d.newKey, entryVal g d)) ++ vals).foldl
        (fun (f : Bytes → Val) kv => fun x => if x = kv.1 then kv.2 else f x) (fun x => (AMap.get l x).getD .invalid)) k = v := by
    intro k v h
    unfold wanted at h
    rcases List.mem_append.1 h with h | h
    · exact u1 k v h
    · rw [u2 k (hconst k v h)]
      simp [AMap.get_of_mem hlw (hl2 (k, v) h)]
  have hiff : ∀ kv, kv ∈ out ↔ kv ∈ wanted dict consts g vals := by
    rintro ⟨k, v⟩
    constructor
    · intro h
      rw [hB, List.mem_map] at h
      obtain ⟨k', hk', he⟩ := h
      simp only [Prod.mk.injEq] at he
      obtain ⟨rfl, rfl⟩ := he
      obtain ⟨⟨k2, v2⟩, hm, he⟩ := List.mem_map.1 ((hwk k').1 hk')
      simp only at he
      subst he
      rw [hval k2 v2 hm]
      exact hm
    · intro h
      rw [hB, List.mem_map]
      exact ⟨k, (hwk k).2 (List.mem_map.2 ⟨_, h, rfl⟩), by rw [hval k v h]⟩
  refine ⟨?_, ?_, hiff, ?_, ?_⟩
  · rw [hkout, ← hks_def]; exact sortB_sorted _
  · rw [hkout]; exact hks
  · rw [hkout, hks_def]
  · intro kv hkv
    rw [hiff]
    unfold wanted
    simp [hkv]

/-! ### Duplicate keys -/

theorem find_first (ps : List (Bytes × Val)) (k : Bytes) (i j : Nat) (p : Bytes × Val) (h : find ps k i = some (j, p)) :
    i ≤ j ∧ ∀ n : Nat, (ps[n]?).map (·.1) = some k → j ≤ i + n := by
  have := find_spec ps k i
  rw [h] at this
  obtain ⟨n, h1, _, _, h4⟩ := this
  refine ⟨by omega, fun n' hn' => ?_⟩
  apply Decidable.by_contra
  intro hc
  exact h4 n' (by omega) hn'

theorem loop_untouched (ps : List (Bytes × Val)) (j : Nat) (h : ∀ k i p, find ps k 0 = some (i, p) → i ≠ j) (ks : List Bytes)
    (s : Nat) (m : AMap Nat Nat) (t : List (Bytes × Val)) : (loop ps ks s m t).1.get j = m.get j := by
  induction ks generalizing s m t with
  | nil => rfl
  | cons k r ih =>
    unfold loop
    split
    · exact ih _ _ _
    · rename_i i p heq
      rw [ih, AMap.get_set_ne _ _ (h k i p heq)]

/-- Finding (C50 fails for duplicate keys): the value of an entry whose key occurred before is written to the first
attribute of the list, whatever that is. -/
theorem duplicate_goes_to_first (dict : List Dict) (vkeys : List Bytes) (consts : List (Bytes × Val)) (i j : Nat) (d e : Dict)
    (hij : i < j) (hi : dict[i]? = some d) (hj : dict[j]? = some e) (hk : d.newKey = e.newKey) :
    ((build dict vkeys consts).sortMap.get j).getD 0 = 0 := by
  have hp : ∀ (n : Nat) x, dict[n]? = some x → (params dict vkeys consts)[n]? = some (x.newKey, .invalid) := by
    intro n x hx
    have hlt : n < dict.length := (List.getElem?_eq_some_iff.1 hx).1
    unfold params
    rw [List.append_assoc, List.getElem?_append_left (by simpa using hlt)]
    simp [hx]
  unfold build
  simp only
  rw [loop_untouched]
  · rfl
  · intro k a p hf hc
    subst hc
    have hs := find_spec (params dict vkeys consts) k 0
    rw [hf] at hs
    obtain ⟨n, h1, h2, h3, _⟩ := hs
    have hn : n = a := by omega
    subst hn
    rw [hp n e hj] at h2
    simp only [Option.some.injEq] at h2
    have hke : k = e.newKey := by rw [← h3, ← h2]
    have := (find_first _ k 0 n p hf).2 i (by rw [hp i d hi]; simp [hke, hk])
    omega

/-! ### Maps -/

theorem foldl_set_get (kvs : List (Bytes × Val)) (m : AMap Bytes Val) (hn : (kvs.map (·.1)).Nodup) :
    (∀ k v, (k, v) ∈ kvs → (kvs.foldl (fun m kv => m.set kv.1 kv.2) m).get k = some v) ∧
    (∀ k, k ∉ kvs.map (·.1) → (kvs.foldl (fun m kv => m.set kv.1 kv.2) m).get k = m.get k) := by
  induction kvs generalizing m with
  | nil => exact ⟨fun k v h => (by cases h), fun k _ => rfl⟩
  | cons kv r ih =>
    simp only [List.map_cons, List.nodup_cons] at hn
    obtain ⟨h1, h2⟩ := ih (m.set kv.1 kv.2) hn.2
    refine ⟨fun k v h => ?_, fun k h => ?_⟩
    · rcases List.mem_cons.1 h with rfl | h
      · rw [List.foldl_cons, h2 _ hn.1]; simp
      · exact h1 k v h
    · simp only [List.map_cons, List.mem_cons, not_or] at h
      rw [List.foldl_cons, h2 k h.2, AMap.get_set_ne _ _ (Ne.symm h.1)]

theorem foldl_addVal (kvs : List (Bytes × Val)) (hv : ∀ kv ∈ kvs, kv.2 ≠ .invalid) (m : AMap Bytes Val) :
    kvs.foldl addVal m = kvs.foldl (fun m kv => m.set kv.1 kv.2) m := by
  induction kvs generalizing m with
  | nil => rfl
  | cons kv r ih =>
    rw [List.foldl_cons, List.foldl_cons, ih (fun x hx => hv x (by simp [hx]))]
    have := hv kv (by simp)
    obtain ⟨k, v⟩ := kv
    cases v <;> first | rfl | exact absurd rfl this

/-- A map the pool may hold. -/
def PooledMap (dict : List Dict) (vkeys : List Bytes) (consts : List (Bytes × Val)) (m : AMap Bytes Val) : Prop :=
  (∀ k v, (k, v) ∈ consts → m.get k = some v) ∧ ∀ k, k ∉ dict.map (·.newKey) ++ vkeys ++ consts.map (·.1) → m.get k = none

theorem mapTemplate_pooled (dict : List Dict) (vkeys : List Bytes) (consts : List (Bytes × Val))
    (hn : (dict.map (·.newKey) ++ vkeys ++ consts.map (·.1)).Nodup) :
    PooledMap dict vkeys consts (build dict vkeys consts).mapTemplate := by
  have hc : (consts.map (·.1)).Nodup := (List.nodup_append.1 hn).2.1
  obtain ⟨h1, h2⟩ := foldl_set_get consts [] hc
  refine ⟨h1, fun k hk => ?_⟩
  have : k ∉ consts.map (·.1) := fun h => hk (List.mem_append.2 (Or.inr h))
  exact h2 k this

/-- The map of a group consists of exactly the wanted attributes, whatever map the pool gives. -/
theorem transformed_map (dict : List Dict) (vkeys : List Bytes) (consts : List (Bytes × Val))
    (hn : (dict.map (·.newKey) ++ vkeys ++ consts.map (·.1)).Nodup) (g : Lab) (vals : List (Bytes × Val))
    (hv : vals.map (·.1) = vkeys) (hval : ∀ kv ∈ vals, kv.2 ≠ .invalid) (m : AMap Bytes Val) (hm : PooledMap dict vkeys consts m) :
    let out := transform (build dict vkeys consts) g vals m
    (∀ k v, out.get k = some v ↔ (k, v) ∈ wanted dict consts g vals) ∧ PooledMap dict vkeys consts out := by
  intro out
  have hout : out = (dict.map (fun d => (d.newKey, entryVal g d)) ++ vals).foldl (fun m kv => m.set kv.1 kv.2) m := by
    show transform _ g vals m = _
    unfold transform
    rw [foldl_addVal _ hval, List.foldl_append, List.foldl_map]
    rfl
  have hkeys : (dict.map (fun d => (d.newKey, entryVal g d)) ++ vals).map (·.1) = dict.map (·.newKey) ++ vkeys := by
    simp [Function.comp_def, hv]
  have hn2 : ((dict.map (fun d => (d.newKey, entryVal g d)) ++ vals).map (·.1)).Nodup := by
    rw [hkeys]; exact (List.nodup_append.1 hn).1
  obtain ⟨h1, h2⟩ := foldl_set_get (dict.map (fun d => (d.newKey, entryVal g d)) ++ vals) m hn2
  rw [← hout] at h1 h2
  have hc : ∀ k v, (k, v) ∈ consts → out.get k = some v := by
    intro k v hkv
    rw [h2 k, hm.1 k v hkv]
    rw [hkeys]
    intro hc
    exact (List.nodup_append.1 hn).2.2 k hc k (List.mem_map.2 ⟨_, hkv, rfl⟩) rfl
  have hw : ∀ k v, (k, v) ∈ wanted dict consts g vals → out.get k = some v := by
    intro k v h
    unfold wanted at h
    rcases List.mem_append.1 h with h | h
    · exact h1 k v h
    · exact hc k v h
  have hnone : ∀ k, k ∉ dict.map (·.newKey) ++ vkeys ++ consts.map (·.1) → out.get k = none := by
    intro k hk
    rw [h2 k]
    · exact hm.2 k hk
    · rw [hkeys]; exact fun h => hk (List.mem_append.2 (Or.inl h))
  refine ⟨fun k v => ⟨fun h => ?_, hw k v⟩, hc, hnone⟩
  have hk : k ∈ (wanted dict consts g vals).map (·.1) := by
    apply Decidable.by_contra
    intro hk
    rw [hnone k] at h
    · cases h
    · intro h'
      apply hk
      unfold wanted
      rw [List.map_append, hkeys]
      exact h'
  obtain ⟨⟨k2, v2⟩, hm2, he⟩ := List.mem_map.1 hk
  simp only at he
  subst he
  have := hw k2 v2 hm2
  rw [h] at this
  simp only [Option.some.injEq] at this
  rw [this]
  exact hm2

/-- C78.  The list and the map of a group carry the same attributes. -/
theorem list_and_map_agree (dict : List Dict) (vkeys : List Bytes) (consts : List (Bytes × Val))
    (hn : (dict.map (·.newKey) ++ vkeys ++ consts.map (·.1)).Nodup) (g : Lab) (vals : List (Bytes × Val))
    (hv : vals.map (·.1) = vkeys) (hval : ∀ kv ∈ vals, kv.2 ≠ .invalid) (l : List (Bytes × Val)) (hl : Pooled dict vkeys consts l)
    (m : AMap Bytes Val) (hm : PooledMap dict vkeys consts m) (k : Bytes) (v : Val) :
    (k, v) ∈ convert (build dict vkeys consts) g vals l ↔ (transform (build dict vkeys consts) g vals m).get k = some v := by
  rw [(converted_list dict vkeys consts hn g vals hv l hl).2.2.1, (transformed_map dict vkeys consts hn g vals hv hval m hm).1]

/-! ### Adjustments -/

/-- `IsNamespaceNotFound` (constlabels/const.go:135-137). -/
def notFound (ns : Bytes) : Bool := ns == bs "NOT_FOUND_EXTERNAL" || ns == bs "NOT_FOUND_INTERNAL"

/-- `removeDstPodInfoForNonExternal` (net_dict.go:132-156), lists. -/
def removeDst (g : Lab) (l : List (Bytes × Val)) : List (Bytes × Val) :=
  if notFound (g.gs (bs "dst_namespace")) then l
  else l.map (fun kv => if kv.1 = bs "dst_node" ∨ kv.1 = bs "dst_pod" then (kv.1, .str []) else kv)

/-- The same for maps. -/
def removeDstMap (g : Lab) (m : AMap Bytes Val) : AMap Bytes Val :=
  if notFound (g.gs (bs "dst_namespace")) then m
  else (m.set (bs "dst_node") (.str [])).set (bs "dst_pod") (.str [])

/-- `replaceDstIpOrDstPortByDNat` (net_dict.go:158-188), lists. -/
def replaceNat (g : Lab) (l : List (Bytes × Val)) : List (Bytes × Val) :=
  let ip := g.gs (bs "dnat_ip")
  let port := g.gi (bs "dnat_port")
  if ip = [] ∨ port < 1 then l
  else l.map (fun kv => if kv.1 = bs "dst_ip" ∧ ip ≠ [] then (kv.1, .str ip)
    else if kv.1 = bs "dst_port" ∧ port > 0 then (kv.1, .int port) else kv)

/-- The same for maps. -/
def replaceNatMap (g : Lab) (m : AMap Bytes Val) : AMap Bytes Val :=
  let ip := g.gs (bs "dnat_ip")
  let port := g.gi (bs "dnat_port")
  if ip = [] ∨ port < 1 then m
  else (m.set (bs "dst_ip") (.str ip)).set (bs "dst_port") (.int port)

theorem node_ne_pod : bs "dst_node" ≠ bs "dst_pod" := by decide
theorem ip_ne_port : bs "dst_ip" ≠ bs "dst_port" := by decide

theorem mem_map_fn {l : List (Bytes × Val)} (f : Bytes → Val → Val) (k : Bytes) (v : Val) :
    (k, v) ∈ l.map (fun kv => (kv.1, f kv.1 kv.2)) ↔ ∃ v0, (k, v0) ∈ l ∧ v = f k v0 := by
  rw [List.mem_map]
  constructor
  · rintro ⟨⟨k', v'⟩, h, he⟩
    simp only [Prod.mk.injEq] at he
    obtain ⟨rfl, rfl⟩ := he
    exact ⟨v', h, rfl⟩
  · rintro ⟨v0, h, rfl⟩
    exact ⟨(k, v0), h, rfl⟩

/-- Adjusted lists and maps agree too, if the two labels the adjustment touches are attributes of the converter. -/
theorem removeDst_agree (g : Lab) (l : List (Bytes × Val)) (m : AMap Bytes Val)
    (h : ∀ k v, (k, v) ∈ l ↔ m.get k = some v) (h1 : bs "dst_node" ∈ l.map (·.1)) (h2 : bs "dst_pod" ∈ l.map (·.1)) (k : Bytes) (v : Val) :
    (k, v) ∈ removeDst g l ↔ (removeDstMap g m).get k = some v := by
  unfold removeDst removeDstMap
  split
  · exact h k v
  · have e : (fun kv : Bytes × Val => if kv.1 = bs "dst_node" ∨ kv.1 = bs "dst_pod" then (kv.1, Val.str []) else kv) =
        (fun kv => (kv.1, (fun k v => if k = bs "dst_node" ∨ k = bs "dst_pod" then Val.str [] else v) kv.1 kv.2)) := by
      funext kv; split <;> simp_all
    rw [e, mem_map_fn (fun k v => if k = bs "dst_node" ∨ k = bs "dst_pod" then Val.str [] else v)]
    by_cases hp : k = bs "dst_pod"
    · subst hp
      rw [AMap.get_set_self]
      obtain ⟨⟨k0, v0⟩, hm, rfl⟩ := List.mem_map.1 h2
      simp only [or_true, if_true, Option.some.injEq]
      exact ⟨fun ⟨_, _, he⟩ => he.symm, fun he => ⟨v0, hm, he.symm⟩⟩
    · rw [AMap.get_set_ne _ _ (Ne.symm hp)]
      by_cases hnd : k = bs "dst_node"
      · subst hnd
        rw [AMap.get_set_self]
        obtain ⟨⟨k0, v0⟩, hm, rfl⟩ := List.mem_map.1 h1
        simp only [true_or, if_true, Option.some.injEq]
        exact ⟨fun ⟨_, _, he⟩ => he.symm, fun he => ⟨v0, hm, he.symm⟩⟩
      · rw [AMap.get_set_ne _ _ (Ne.symm hnd), ← h]
        simp only [hp, hnd, or_self, if_false]
        exact ⟨fun ⟨v0, hm, he⟩ => he ▸ hm, fun hm => ⟨v, hm, rfl⟩⟩

theorem replaceNat_agree (g : Lab) (l : List (Bytes × Val)) (m : AMap Bytes Val)
    (h : ∀ k v, (k, v) ∈ l ↔ m.get k = some v) (h1 : bs "dst_ip" ∈ l.map (·.1)) (h2 : bs "dst_port" ∈ l.map (·.1)) (k : Bytes) (v : Val) :
    (k, v) ∈ replaceNat g l ↔ (replaceNatMap g m).get k = some v := by
  unfold replaceNat replaceNatMap
  simp only
  split
  · exact h k v
  · rename_i hc
    have hip : g.gs (bs "dnat_ip") ≠ [] := fun h => hc (Or.inl h)
    have hpt : g.gi (bs "dnat_port") > 0 := by
      apply Decidable.by_contra
      intro h
      exact hc (Or.inr (by omega))
    have e : (fun kv : Bytes × Val => if kv.1 = bs "dst_ip" ∧ g.gs (bs "dnat_ip") ≠ [] then (kv.1, Val.str (g.gs (bs "dnat_ip")))
        else if kv.1 = bs "dst_port" ∧ g.gi (bs "dnat_port") > 0 then (kv.1, Val.int (g.gi (bs "dnat_port"))) else kv) =
        (fun kv => (kv.1, (fun k v => if k = bs "dst_ip" then Val.str (g.gs (bs "dnat_ip")) else
          if k = bs "dst_port" then Val.int (g.gi (bs "dnat_port")) else v) kv.1 kv.2)) := by
      funext kv
      by_cases a : kv.1 = bs "dst_ip"
      · simp [a, hip]
      · by_cases b : kv.1 = bs "dst_port"
        · simp [b, hpt, ip_ne_port.symm]
        · simp [a, b]
    rw [e, mem_map_fn (fun k v => if k = bs "dst_ip" then Val.str (g.gs (bs "dnat_ip")) else
          if k = bs "dst_port" then Val.int (g.gi (bs "dnat_port")) else v)]
    by_cases hp : k = bs "dst_port"
    · subst hp
      rw [AMap.get_set_self]
      obtain ⟨⟨k0, v0⟩, hm, he⟩ := List.mem_map.1 h2
      simp only at he
      rw [he] at hm
      simp only [ip_ne_port.symm, if_false, if_true, Option.some.injEq]
      exact ⟨fun ⟨_, _, he⟩ => he.symm, fun he => ⟨v0, hm, he.symm⟩⟩
    · rw [AMap.get_set_ne _ _ (Ne.symm hp)]
      by_cases hnd : k = bs "dst_ip"
      · subst hnd
        rw [AMap.get_set_self]
        obtain ⟨⟨k0, v0⟩, hm, he⟩ := List.mem_map.1 h1
        simp only at he
        rw [he] at hm
        simp only [if_true, Option.some.injEq]
        exact ⟨fun ⟨_, _, he⟩ => he.symm, fun he => ⟨v0, hm, he.symm⟩⟩
      · rw [AMap.get_set_ne _ _ (Ne.symm hnd), ← h]
        simp only [hp, hnd, if_false]
        exact ⟨fun ⟨v0, hm, he⟩ => he ▸ hm, fun hm => ⟨v, hm, rfl⟩⟩

/-- An adjusted list can go back to the pool if no constant label is one of those adjusted. -/
theorem adjusted_pooled (dict : List Dict) (vkeys : List Bytes) (consts : List (Bytes × Val)) (g : Lab) (l : List (Bytes × Val))
    (hl : Pooled dict vkeys consts l) :
    ((∀ kv ∈ consts, kv.1 ≠ bs "dst_node" ∧ kv.1 ≠ bs "dst_pod") → Pooled dict vkeys consts (removeDst g l)) ∧
    ((∀ kv ∈ consts, kv.1 ≠ bs "dst_ip" ∧ kv.1 ≠ bs "dst_port") → Pooled dict vkeys consts (replaceNat g l)) := by
  constructor
  · intro hc
    unfold removeDst
    split
    · exact hl
    · refine ⟨?_, fun kv hkv => ?_⟩
      · rw [← hl.1, List.map_map]
        apply List.map_congr_left
        intro kv _
        simp only [Function.comp]
        split <;> rfl
      · rw [List.mem_map]
        exact ⟨kv, hl.2 kv hkv, by simp [hc kv hkv]⟩
  · intro hc
    unfold replaceNat
    simp only
    split
    · exact hl
    · refine ⟨?_, fun kv hkv => ?_⟩
      · rw [← hl.1, List.map_map]
        apply List.map_congr_left
        intro kv _
        simp only [Function.comp]
        split
        · rfl
        · split <;> rfl
      · rw [List.mem_map]
        exact ⟨kv, hl.2 kv hkv, by simp [hc kv hkv]⟩

/-! ### Status grades -/

/-- `getRequestStatus` (net_dict.go:389-397). -/
def requestStatus (n : Int) : Bytes :=
  if n ≤ 800 * 1000000 then bs "1" else if n ≥ 1500 * 1000000 then bs "3" else bs "2"

/-- `getSubStageStatus` (net_dict.go:399-407). -/
def subStageStatus (n : Int) : Bytes :=
  if n ≤ 200 * 1000000 then bs "1" else if n ≥ 1000 * 1000000 then bs "3" else bs "2"

/-- Spec: the grade as a number. -/
def grade (s : Bytes) : Nat := if s = bs "1" then 1 else if s = bs "2" then 2 else if s = bs "3" then 3 else 0

/-- C51: grade 1 up to 800 ms, 3 from 1.5 s, 2 between (200 ms and 1 s for stages); a longer duration never has a
better grade. -/
theorem grades (n : Int) :
    (grade (requestStatus n) = 1 ↔ n ≤ 800000000) ∧ (grade (requestStatus n) = 3 ↔ 1500000000 ≤ n) ∧
    (grade (requestStatus n) = 2 ↔ 800000000 < n ∧ n < 1500000000) ∧
    (grade (subStageStatus n) = 1 ↔ n ≤ 200000000) ∧ (grade (subStageStatus n) = 3 ↔ 1000000000 ≤ n) ∧
    (grade (subStageStatus n) = 2 ↔ 200000000 < n ∧ n < 1000000000) := by
  have g1 : grade (bs "1") = 1 := by decide
  have g2 : grade (bs "2") = 2 := by decide
  have g3 : grade (bs "3") = 3 := by decide
  unfold requestStatus subStageStatus
  refine ⟨?_, ?_, ?_, ?_, ?_, ?_⟩ <;>
  · split
    · rw [g1]; omega
    · split
      · rw [g3]; omega
      · rw [g2]; omega

theorem grades_monotone (m n : Int) (h : m ≤ n) :
    grade (requestStatus m) ≤ grade (requestStatus n) ∧ grade (subStageStatus m) ≤ grade (subStageStatus n) := by
  have a := grades m
  have b := grades n
  have h1 : ∀ n, grade (requestStatus n) = 1 ∨ grade (requestStatus n) = 2 ∨ grade (requestStatus n) = 3 := by
    intro n; have := grades n; omega
  have h2 : ∀ n, grade (subStageStatus n) = 1 ∨ grade (subStageStatus n) = 2 ∨ grade (subStageStatus n) = 3 := by
    intro n; have := grades n; omega
  have := h1 m; have := h1 n; have := h2 m; have := h2 n
  omega

/-- Finding: in a map a value label without a value keeps the value of an earlier group. -/
theorem missing_value_keeps_old (dict : List Dict) (vkeys : List Bytes) (consts : List (Bytes × Val)) (g : Lab)
    (vals : List (Bytes × Val)) (k : Bytes) (hk : ∀ v, (k, v) ∈ vals → v = .invalid) (hd : k ∉ dict.map (·.newKey)) (m : AMap Bytes Val) :
    (transform (build dict vkeys consts) g vals m).get k = m.get k := by
  have h2 : ∀ (vals : List (Bytes × Val)) (m : AMap Bytes Val), (∀ v, (k, v) ∈ vals → v = .invalid) →
      (vals.foldl addVal m).get k = m.get k := by
    intro vals
    induction vals with
    | nil => intro m _; rfl
    | cons kv r ih =>
      intro m h
      rw [List.foldl_cons, ih _ (fun v hv => h v (by simp [hv]))]
      obtain ⟨k', v⟩ := kv
      by_cases he : k' = k
      · subst he
        have := h v (by simp)
        subst this
        rfl
      · cases v <;> simp only [addVal] <;> first | rfl | exact AMap.get_set_ne _ _ he
  have h1 : ∀ (dict : List Dict) (m : AMap Bytes Val), k ∉ dict.map (·.newKey) →
      (dict.foldl (fun m d => m.set d.newKey (entryVal g d)) m).get k = m.get k := by
    intro dict
    induction dict with
    | nil => intro m _; rfl
    | cons d r ih =>
      intro m h
      simp only [List.map_cons, List.mem_cons, not_or] at h
      rw [List.foldl_cons, ih _ h.2, AMap.get_set_ne _ _ (Ne.symm h.1)]
  unfold transform
  rw [h2 vals _ hk]
  exact h1 dict m hd

end Kindling.Export.Labels
