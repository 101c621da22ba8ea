import Verif.Dec
/-
Small tools of the Kubernetes metadata: compare/int32_slice.go, compare/string_slice.go, container ids,
workload names and label selectors (metadata/kubernetes/pod_watch.go, service_watch.go, helper.go).
Go strings are byte lists.
-/
namespace Kindling.K8s

/-! ### Differences of slices (compare/int32_slice.go, compare/string_slice.go; the two files are the same
code at two types) -/

section Diff
variable {α : Type} [DecidableEq α]

/-- Inner loop of `Compare` (int32_slice.go:22-27). -/
def cmpInner (e : α) (i : Nat) : Nat → List α → List Bool × List Bool → List Bool × List Bool
  | _, [], f => f
  | j, o :: r, f => cmpInner e i (j + 1) r (if o = e then (f.1.set i true, f.2.set j true) else f)

/-- Outer loop of `Compare` (int32_slice.go:21-29). -/
def cmpOuter (old : List α) : Nat → List α → List Bool × List Bool → List Bool × List Bool
  | _, [], f => f
  | i, e :: r, f => cmpOuter old (i + 1) r (cmpInner e i 0 old f)

/-- `GetRemovedElements`/`GetAddedElements` (int32_slice.go:32-50): elements with an unset flag. -/
def unflagged : List Bool → List α → List α
  | f :: fs, x :: xs => if f then unflagged fs xs else x :: unflagged fs xs
  | _, _ => []

/-- `NewInt32Slice`, `Compare`, `GetRemovedElements`. -/
def removed (old new : List α) : List α :=
  unflagged (cmpOuter old 0 new (List.replicate new.length false, List.replicate old.length false)).2 old

/-- `NewInt32Slice`, `Compare`, `GetAddedElements`. -/
def added (old new : List α) : List α :=
  unflagged (cmpOuter old 0 new (List.replicate new.length false, List.replicate old.length false)).1 new

theorem cmpInner_spec (e : α) (i j : Nat) (l : List α) (f : List Bool × List Bool) :
    (∀ m : Nat, (cmpInner e i j l f).2[m]? = (f.2[m]?).map (fun b => b || decide (j ≤ m ∧ l[m - j]? = some e))) ∧
    (∀ m : Nat, (cmpInner e i j l f).1[m]? = (f.1[m]?).map (fun b => b || decide (m = i ∧ e ∈ l))) := by
  induction l generalizing j f with
  | nil => constructor <;> intro m <;> simp [cmpInner]
  | cons o r ih =>
    obtain ⟨h1, h2⟩ := ih (j + 1) (if o = e then (f.1.set i true, f.2.set j true) else f)
    rw [cmpInner]
    constructor
    · intro m
      rw [h1 m]
      by_cases ho : o = e
      · rw [if_pos ho]
        simp only [List.getElem?_set]
        by_cases hjm : j = m
        · subst hjm
          by_cases hl : j < f.2.length
          · simp [hl, ho]
          · simp [hl]
        · simp only [hjm, ↓reduceIte]
          congr 1
          funext b
          congr 1
          by_cases hle : j + 1 ≤ m
          · have : m - j = (m - (j + 1)) + 1 := by omega
            simp [hle, show j ≤ m by omega, this]
          · simp [hle, show ¬ j ≤ m by omega]
      · rw [if_neg ho]
        congr 1
        funext b
        congr 1
        by_cases hjm : j = m
        · subst hjm; simp [ho, show ¬ (j + 1 ≤ j) by omega]
        · by_cases hle : j + 1 ≤ m
          · have : m - j = (m - (j + 1)) + 1 := by omega
            simp [hle, show j ≤ m by omega, this]
          · simp [hle, show ¬ j ≤ m by omega]
    · intro m
      rw [h2 m]
      by_cases ho : o = e
      · rw [if_pos ho]
        simp only [List.getElem?_set]
        by_cases him : i = m
        · subst him
          by_cases hl : i < f.1.length <;> simp [hl, ho]
        · simp [him, Ne.symm him]
      · rw [if_neg ho]
        congr 1
        funext b
        congr 1
        simp [Ne.symm ho]

theorem cmpOuter_spec (old : List α) (i : Nat) (new : List α) (f : List Bool × List Bool) :
    (∀ m : Nat, (cmpOuter old i new f).2[m]? = (f.2[m]?).map (fun b => b || decide (∃ e ∈ new, old[m]? = some e))) ∧
    (∀ m : Nat, (cmpOuter old i new f).1[m]? = (f.1[m]?).map (fun b => b || decide (i ≤ m ∧ ∃ e ∈ old, new[m - i]? = some e))) := by
  induction new generalizing i f with
  | nil => constructor <;> intro m <;> simp [cmpOuter]
  | cons e r ih =>
    obtain ⟨h1, h2⟩ := ih (i + 1) (cmpInner e i 0 old f)
    obtain ⟨g1, g2⟩ := cmpInner_spec e i 0 old f
    rw [cmpOuter]
    constructor
    · intro m
      rw [h1 m, g1 m, Option.map_map]
      congr 1
      funext b
      simp only [Function.comp, Bool.or_assoc]
      congr 1
      by_cases h : old[m]? = some e
      · simp [h]
      · simp only [Nat.zero_le, Nat.sub_zero, h, and_false, decide_false, Bool.false_or]
        congr 1
        simp [h]
    · intro m
      rw [h2 m, g2 m, Option.map_map]
      congr 1
      funext b
      simp only [Function.comp, Bool.or_assoc]
      congr 1
      by_cases hm : m = i
      · subst hm
        simp [show ¬ (m + 1 ≤ m) by omega]
      · by_cases hle : i + 1 ≤ m
        · have : m - i = (m - (i + 1)) + 1 := by omega
          simp [hm, hle, show i ≤ m by omega, this]
        · simp [hm, hle, show ¬ i ≤ m by omega]

theorem unflagged_filter (fs : List Bool) (l : List α) (p : α → Bool) (h : ∀ m : Nat, fs[m]? = (l[m]?).map p) :
    unflagged fs l = l.filter (fun x => !p x) := by
  induction l generalizing fs with
  | nil =>
    cases fs with
    | nil => rfl
    | cons f r => have := h 0; simp at this
  | cons x r ih =>
    cases fs with
    | nil => have := h 0; simp at this
    | cons f t =>
      have h0 := h 0
      simp only [List.getElem?_cons_zero, Option.map_some, Option.some.injEq] at h0
      have ht := ih t (fun m => by have := h (m + 1); simpa using this)
      rw [unflagged, ht, h0, List.filter_cons]
      cases p x <;> simp

/-- C42.  The removed elements are exactly the old ones that are not new, the added ones exactly the new
ones that are not old, in their order and with repetitions. -/
theorem diff_exact (old new : List α) :
    removed old new = old.filter (fun x => decide (x ∉ new)) ∧ added old new = new.filter (fun x => decide (x ∉ old)) := by
  obtain ⟨h1, h2⟩ := cmpOuter_spec old 0 new (List.replicate new.length false, List.replicate old.length false)
  constructor
  · unfold removed
    rw [unflagged_filter _ old (fun x => decide (x ∈ new))]
    · congr 1; funext x; simp
    · intro m
      rw [h1 m]
      simp only [List.getElem?_replicate]
      by_cases hm : m < old.length
      · simp [hm]
      · rw [List.getElem?_eq_none (by omega)]; simp [hm]
  · unfold added
    rw [unflagged_filter _ new (fun x => decide (x ∈ old))]
    · congr 1; funext x; simp
    · intro m
      rw [h2 m]
      simp only [List.getElem?_replicate]
      by_cases hm : m < new.length
      · simp [hm]
      · rw [List.getElem?_eq_none (by omega)]; simp [hm]

example : removed [1, 2, 2, 3] [3, 4, 4] = [1, 2, 2] ∧ added [1, 2, 2, 3] [3, 4, 4] = [4, 4] := by decide
end Diff

/-! ### Container ids (pod_watch.go:483-500) -/

/-- `strings.SplitN(s, "://", 2)`: the part after the first separator. -/
def afterSep : Bytes → Option Bytes
  | [] => none
  | b :: r => if bs "://" <+: b :: r then some ((b :: r).drop 3) else afterSep r

/-- `TruncateContainerId` (pod_watch.go:487-500). -/
def truncate (s : Bytes) : Bytes :=
  match afterSep s with
  | none => []
  | some r => r.take (min r.length 12)

/-- No separator starts within `p` in `p ++ "://" ++ r`. -/
def FirstSep (p r : Bytes) : Prop := ∀ i, i < p.length → ¬ bs "://" <+: (p ++ bs "://" ++ r).drop i

theorem afterSep_first (p r : Bytes) (h : FirstSep p r) : afterSep (p ++ bs "://" ++ r) = some r := by
  have hl : (bs "://").length = 3 := by decide
  have hc : bs "://" = 58 :: [47, 47] := by decide
  induction p with
  | nil =>
    rw [hc]
    simp only [List.nil_append, List.cons_append, afterSep]
    rw [if_pos (by rw [hc]; simp)]
    rfl
  | cons b t ih =>
    have h0 := h 0 (by simp)
    simp only [List.drop_zero, List.cons_append] at h0
    simp only [List.cons_append, afterSep]
    rw [if_neg h0]
    refine ih (fun i hi => ?_)
    have := h (i + 1) (by simp; omega)
    simpa using this

theorem afterSep_none (s : Bytes) : afterSep s = none ↔ ∀ p r, s ≠ p ++ bs "://" ++ r := by
  have hc : bs "://" = 58 :: [47, 47] := by decide
  induction s with
  | nil => simp [afterSep, hc]
  | cons b t ih =>
    simp only [afterSep]
    by_cases h : bs "://" <+: b :: t
    · rw [if_pos h]
      obtain ⟨r, hr⟩ := h
      constructor
      · intro h; cases h
      · intro h; exact absurd (by rw [← hr]; rfl) (h [] r)
    · rw [if_neg h]
      refine Iff.trans ih ?_
      constructor
      · intro h1 p r he
        cases p with
        | nil => exact h ⟨r, by rw [he]; rfl⟩
        | cons x p' =>
          simp only [List.cons_append, List.cons.injEq] at he
          exact h1 p' r he.2
      · intro h1 p r he
        exact h1 (b :: p) r (by rw [he]; rfl)

/-- C43.  The short id is the first twelve bytes (all, if fewer) of what follows the first `://`, and
empty exactly if there is no `://` or nothing follows the first one. -/
theorem truncate_spec (s : Bytes) :
    (∀ p r, s = p ++ bs "://" ++ r → FirstSep p r → truncate s = r.take 12) ∧
    ((∀ p r, s ≠ p ++ bs "://" ++ r) → truncate s = []) ∧
    (truncate s = [] ↔ (∀ p r, s ≠ p ++ bs "://" ++ r) ∨ ∃ p, s = p ++ bs "://" ∧ FirstSep p []) ∧
    (truncate s).length ≤ 12 := by
  have htake : ∀ r : Bytes, r.take (min r.length 12) = r.take 12 := by
    intro r
    by_cases h : r.length ≤ 12
    · rw [Nat.min_eq_left h, List.take_length, List.take_of_length_le h]
    · rw [Nat.min_eq_right (by omega)]
  have h1 : ∀ p r, s = p ++ bs "://" ++ r → FirstSep p r → truncate s = r.take 12 := by
    rintro p r rfl h
    unfold truncate
    rw [afterSep_first p r h]
    exact htake r
  have h2 : (∀ p r, s ≠ p ++ bs "://" ++ r) → truncate s = [] := by
    intro h
    unfold truncate
    rw [(afterSep_none s).2 h]
  refine ⟨h1, h2, ⟨fun h => ?_, fun h => ?_⟩, ?_⟩
  · by_cases hn : ∀ p r, s ≠ p ++ bs "://" ++ r
    · exact Or.inl hn
    · right
      have key : ∀ s : Bytes, (∃ p r, s = p ++ bs "://" ++ r) → ∃ p r, s = p ++ bs "://" ++ r ∧ FirstSep p r := by
        intro s
        induction s with
        | nil => rintro ⟨p, r, h⟩; have hc : bs "://" = 58 :: [47, 47] := by decide
                 rw [hc] at h; simp at h
        | cons b t ih =>
          rintro ⟨p, r, he⟩
          by_cases hp : bs "://" <+: b :: t
          · obtain ⟨r', hr'⟩ := hp
            exact ⟨[], r', hr'.symm, fun i hi => by simp at hi⟩
          · cases p with
            | nil => exact absurd ⟨r, by rw [he]; rfl⟩ hp
            | cons x p' =>
              simp only [List.cons_append, List.cons.injEq] at he
              obtain ⟨q, r', e, hf⟩ := ih ⟨p', r, he.2⟩
              refine ⟨b :: q, r', by rw [e]; rfl, fun i hi => ?_⟩
              cases i with
              | zero =>
                simp only [List.drop_zero, List.cons_append]
                rw [← e]; exact hp
              | succ i => simpa using hf i (by simpa using hi)
      have : ∃ p r, s = p ++ bs "://" ++ r := by
        apply Classical.byContradiction
        intro hx
        exact hn (fun p r he => hx ⟨p, r, he⟩)
      obtain ⟨p, r, e, hf⟩ := key s this
      have := h1 p r e hf
      rw [h] at this
      have hr : r = [] := by
        cases r with
        | nil => rfl
        | cons x y => simp at this
      subst hr
      exact ⟨p, by simpa using e, hf⟩
  · rcases h with h | ⟨p, e, hf⟩
    · exact h2 h
    · rw [h1 p [] (by simpa using e) hf]; rfl
  · unfold truncate
    cases afterSep s with
    | none => simp
    | some r => simp only [List.length_take]; omega

example : truncate (bs "docker://1a2b3c4d5e6f7a8b") = bs "1a2b3c4d5e6f" ∧ truncate (bs "1a2b3c") = [] := by decide

/-! ### Workloads of pods (pod_watch.go:293-333) -/

def isHash (b : UInt8) : Bool := (48 ≤ b && b ≤ 57) || (97 ≤ b && b ≤ 122)

/-- The regular expression `^(.*)-[0-9a-z]+$` matched with `.*` taking the first `i` bytes. -/
def matchAt (s : Bytes) (i : Nat) : Bool :=
  (s.take i).all (fun b => b != 10) &&
  match s.drop i with
  | b :: r => b == 45 && !r.isEmpty && r.all isHash
  | [] => false

/-- Greedy search for the longest `.*`. -/
def greedy (s : Bytes) : Nat → Option Bytes
  | 0 => if matchAt s 0 then some [] else none
  | i + 1 => if matchAt s (i + 1) then some (s.take (i + 1)) else greedy s i

/-- `extractDeploymentName` (pod_watch.go:325-333). -/
def extractDeployment (s : Bytes) : Bytes := (greedy s s.length).getD []

theorem matchAt_iff (s : Bytes) (i : Nat) (_hi : i ≤ s.length) :
    matchAt s i = true ↔ ∃ h, s = s.take i ++ 45 :: h ∧ h ≠ [] ∧ (∀ b ∈ h, isHash b = true) ∧ (10 : UInt8) ∉ s.take i := by
  unfold matchAt
  have hs : s = s.take i ++ s.drop i := (List.take_append_drop i s).symm
  constructor
  · intro h
    simp only [Bool.and_eq_true, List.all_eq_true] at h
    obtain ⟨h1, h2⟩ := h
    cases hd : s.drop i with
    | nil => rw [hd] at h2; cases h2
    | cons b r =>
      rw [hd] at h2
      simp only [Bool.and_eq_true, beq_iff_eq, Bool.not_eq_true', List.all_eq_true] at h2
      refine ⟨r, ?_, ?_, h2.2, ?_⟩
      · rw [← h2.1.1, ← hd]; exact hs
      · intro hr; rw [hr] at h2; simp at h2
      · intro hm; have := h1 _ hm; simp at this
  · rintro ⟨h, he, hne, hh, hn⟩
    have hd : s.drop i = 45 :: h := by
      have : s.take i ++ s.drop i = s.take i ++ 45 :: h := by rw [← hs]; exact he
      exact List.append_cancel_left this
    simp only [Bool.and_eq_true, List.all_eq_true]
    refine ⟨fun b hb => ?_, ?_⟩
    · simp only [bne_iff_ne, ne_eq]; rintro rfl; exact hn hb
    · rw [hd]
      simp only [beq_self_eq_true, Bool.true_and, Bool.and_eq_true, List.all_eq_true, Bool.not_eq_true']
      refine ⟨?_, hh⟩
      cases h with
      | nil => exact absurd rfl hne
      | cons a b => rfl

/-- The dash is determined: nothing after it is a dash. -/
theorem dash_unique {a b h k : Bytes} (he : a ++ 45 :: h = b ++ 45 :: k) (hh : ∀ x ∈ h, isHash x = true)
    (hk : ∀ x ∈ k, isHash x = true) : a = b ∧ h = k := by
  have nd : isHash 45 = false := by decide
  induction a generalizing b with
  | nil =>
    cases b with
    | nil => simp only [List.nil_append, List.cons.injEq, true_and] at he; exact ⟨rfl, he⟩
    | cons x t =>
      simp only [List.nil_append, List.cons_append, List.cons.injEq] at he
      have : isHash 45 = true := hh 45 (by rw [he.2]; simp)
      rw [nd] at this; cases this
  | cons y s ih =>
    cases b with
    | nil =>
      simp only [List.nil_append, List.cons_append, List.cons.injEq] at he
      have : isHash 45 = true := hk 45 (by rw [← he.2]; simp)
      rw [nd] at this; cases this
    | cons x t =>
      simp only [List.cons_append, List.cons.injEq] at he
      obtain ⟨h1, h2⟩ := ih he.2
      exact ⟨by rw [he.1, h1], h2⟩

theorem greedy_spec (s : Bytes) (n : Nat) (hn : n ≤ s.length) :
    (∀ d h, s = d ++ 45 :: h → h ≠ [] → (∀ b ∈ h, isHash b = true) → (10 : UInt8) ∉ d → d.length ≤ n → greedy s n = some d) ∧
    ((∀ d h, s = d ++ 45 :: h → h ≠ [] → (∀ b ∈ h, isHash b = true) → (10 : UInt8) ∈ d ∨ n < d.length) → greedy s n = none) := by
  have pos : ∀ d h (i : Nat), s = d ++ 45 :: h → (∀ b ∈ h, isHash b = true) → i ≤ s.length → matchAt s i = true → s.take i = d := by
    intro d h i he hh hi hm
    obtain ⟨k, e1, _, e3, _⟩ := (matchAt_iff s i hi).1 hm
    exact (dash_unique (by rw [← e1]; exact he) e3 hh).1
  have hit : ∀ d h, s = d ++ 45 :: h → h ≠ [] → (∀ b ∈ h, isHash b = true) → (10 : UInt8) ∉ d → matchAt s d.length = true := by
    intro d h he h1 h2 h3
    have ht : s.take d.length = d := by rw [he]; simp
    refine (matchAt_iff s d.length (by rw [he]; simp)).2 ⟨h, by rw [ht]; exact he, h1, h2, by rw [ht]; exact h3⟩
  induction n with
  | zero =>
    refine ⟨fun d h he h1 h2 h3 h4 => ?_, fun hx => ?_⟩
    · have hd : d = [] := by cases d with
        | nil => rfl
        | cons a b => simp at h4
      subst hd
      have := hit [] h he h1 h2 h3
      simp only [List.length_nil] at this
      simp [greedy, this]
    · rw [greedy, if_neg]
      intro hm
      obtain ⟨k, e1, e2, e3, e4⟩ := (matchAt_iff s 0 (by omega)).1 hm
      rcases hx _ _ e1 e2 e3 with h | h
      · exact e4 h
      · simp at h
  | succ n ih =>
    obtain ⟨i1, i2⟩ := ih (by omega)
    refine ⟨fun d h he h1 h2 h3 h4 => ?_, fun hx => ?_⟩
    · rw [greedy]
      by_cases hm : matchAt s (n + 1) = true
      · rw [if_pos hm, pos d h (n + 1) he h2 hn hm]
      · rw [if_neg hm]
        refine i1 d h he h1 h2 h3 ?_
        have : d.length ≠ n + 1 := fun e => hm (e ▸ hit d h he h1 h2 h3)
        omega
    · rw [greedy, if_neg]
      · refine i2 (fun d h he h1 h2 => ?_)
        rcases hx d h he h1 h2 with h | h
        · exact Or.inl h
        · exact Or.inr (by omega)
      · intro hm
        obtain ⟨k, e1, e2, e3, e4⟩ := (matchAt_iff s (n + 1) hn).1 hm
        rcases hx _ _ e1 e2 e3 with h | h
        · exact e4 h
        · simp only [List.length_take] at h; omega

/-- A replica set named by Kubernetes (deployment, dash, hash) yields the name of its deployment. -/
theorem deployment_of_replicaset (d h : Bytes) (h1 : h ≠ []) (h2 : ∀ b ∈ h, isHash b = true) (h3 : (10 : UInt8) ∉ d) :
    extractDeployment (d ++ 45 :: h) = d := by
  unfold extractDeployment
  rw [(greedy_spec (d ++ 45 :: h) _ (Nat.le_refl _)).1 d h rfl h1 h2 h3 (by simp)]
  rfl

/-- Any other name yields the empty name. -/
theorem deployment_of_other (s : Bytes) (h : ∀ d k, s = d ++ 45 :: k → k ≠ [] → (∀ b ∈ k, isHash b = true) → (10 : UInt8) ∈ d) :
    extractDeployment s = [] := by
  unfold extractDeployment
  rw [(greedy_spec s _ (Nat.le_refl _)).2 (fun d k e h1 h2 => Or.inl (h d k e h1 h2))]
  rfl

example : extractDeployment (bs "my-app-5d4f8b7c9") = bs "my-app" ∧ extractDeployment (bs "app") = [] := by decide

/-- An owner reference. `controller` is false for a missing flag. -/
structure Owner where
  controller : Bool
  kind : Bytes
  name : Bytes
  api : Bytes

/-- `strings.ToLower` on ASCII. -/
def lower (s : Bytes) : Bytes := s.map (fun b => if 65 ≤ b ∧ b ≤ 90 then b + 32 else b)

/-- `CompleteGVK` (helper.go:8-18); the known group versions are a parameter. -/
def completeGVK (builtIn : Bytes → Bool) (api kind : Bytes) : Bytes :=
  if api = [] then kind else if builtIn api then kind else api ++ bs "/" ++ kind

/-- `mapKey` (helper.go:20-22). -/
def mapKey (ns name : Bytes) : Bytes := ns ++ bs "/" ++ name

/-- `getControllerKindName` (pod_watch.go:293-320): kind and name of the workload. -/
def controllerKindName (builtIn : Bytes → Bool) (rs : Bytes → Option Owner) (ns : Bytes) : List Owner → Bytes × Bytes
  | [] => ([], [])
  | o :: r =>
    if !o.controller then controllerKindName builtIn rs ns r
    else if o.kind = bs "ReplicaSet" then
      match rs (mapKey ns o.name) with
      | some w => (completeGVK builtIn w.api (lower w.kind), w.name)
      | none => (bs "deployment", extractDeployment o.name)
    else (completeGVK builtIn o.api (lower o.kind), o.name)

/-- Namespaces contain no slash, so the key of a replica set determines it. -/
theorem mapKey_inj {a b x y : Bytes} (ha : (47 : UInt8) ∉ a) (hb : (47 : UInt8) ∉ b) (h : mapKey a x = mapKey b y) :
    a = b ∧ x = y := by
  have hc : bs "/" = [47] := by decide
  unfold mapKey at h
  rw [hc] at h
  simp only [List.append_assoc, List.singleton_append] at h
  induction a generalizing b with
  | nil =>
    cases b with
    | nil => simpa using h
    | cons c t => simp only [List.nil_append, List.cons_append, List.cons.injEq] at h; exact absurd (by rw [h.1]; simp) hb
  | cons c t ih =>
    cases b with
    | nil => simp only [List.nil_append, List.cons_append, List.cons.injEq] at h; exact absurd (by rw [← h.1]; simp) ha
    | cons e s =>
      simp only [List.cons_append, List.cons.injEq] at h
      obtain ⟨h1, h2⟩ := ih (fun hm => ha (by simp [hm])) (fun hm => hb (by simp [hm])) h.2
      exact ⟨by rw [h.1, h1], h2⟩

/-- The workload of a pod: that of its first controlling owner, where a replica set stands for what owns
it, or for the deployment in its name if the replica set is not known; none without such an owner. -/
theorem workload_of_pod (builtIn : Bytes → Bool) (rs : Bytes → Option Owner) (ns : Bytes) (pre post : List Owner) (o : Owner)
    (hpre : ∀ x ∈ pre, x.controller = false) (ho : o.controller = true) :
    (o.kind ≠ bs "ReplicaSet" → controllerKindName builtIn rs ns (pre ++ o :: post) = (completeGVK builtIn o.api (lower o.kind), o.name)) ∧
    (o.kind = bs "ReplicaSet" → ∀ w, rs (mapKey ns o.name) = some w →
      controllerKindName builtIn rs ns (pre ++ o :: post) = (completeGVK builtIn w.api (lower w.kind), w.name)) ∧
    (o.kind = bs "ReplicaSet" → rs (mapKey ns o.name) = none → ∀ d h, o.name = d ++ 45 :: h → h ≠ [] →
      (∀ b ∈ h, isHash b = true) → (10 : UInt8) ∉ d →
      controllerKindName builtIn rs ns (pre ++ o :: post) = (bs "deployment", d)) ∧
    controllerKindName builtIn rs ns pre = ([], []) := by
  have skip : ∀ l, controllerKindName builtIn rs ns (pre ++ l) = controllerKindName builtIn rs ns l := by
    intro l
    induction pre with
    | nil => rfl
    | cons x t ih =>
      simp only [List.cons_append, controllerKindName, hpre x (by simp), Bool.not_false, ↓reduceIte]
      exact ih (fun y hy => hpre y (by simp [hy]))
  refine ⟨fun h => ?_, fun h w hw => ?_, fun h hn d k hd h1 h2 h3 => ?_, ?_⟩
  · rw [skip]; simp [controllerKindName, ho, h]
  · rw [skip]; simp [controllerKindName, ho, h, hw]
  · rw [skip]; simp only [controllerKindName, ho, h, hn, Bool.not_true, Bool.false_eq_true, ↓reduceIte]
    rw [hd, deployment_of_replicaset d k h1 h2 h3]
  · have := skip []; rw [List.append_nil] at this; rw [this]; rfl

/-! ### Label selectors (service_watch.go:209-217, pod_watch.go:150-170) -/

/-- `SelectorsMatchLabels` (service_watch.go:210-217). -/
def selectorsMatch : AMap Bytes Bytes → AMap Bytes Bytes → Bool
  | [], _ => true
  | (k, v) :: r, labels => match labels.get k with
    | none => false
    | some w => if w ≠ v then false else selectorsMatch r labels

theorem selectorsMatch_iff (sel labels : AMap Bytes Bytes) (hs : AMap.WF sel) :
    selectorsMatch sel labels = true ↔ ∀ k v, sel.get k = some v → labels.get k = some v := by
  have hmem : selectorsMatch sel labels = true ↔ ∀ p ∈ sel, labels.get p.1 = some p.2 := by
    clear hs
    induction sel with
    | nil => simp [selectorsMatch]
    | cons p r ih =>
      obtain ⟨k, v⟩ := p
      simp only [selectorsMatch, List.mem_cons, forall_eq_or_imp]
      cases hg : labels.get k with
      | none => simp
      | some w =>
        simp only [Option.some.injEq]
        by_cases hw : w = v
        · simp [hw, ih]
        · simp [hw]
  rw [hmem]
  constructor
  · intro h k v hk
    exact h (k, v) (AMap.mem_of_get hk)
  · intro h p hp
    exact h p.1 p.2 (AMap.get_of_mem hs hp)

/-! ### Details -/

theorem isHash_iff (b : UInt8) : isHash b = true ↔ b ∈ bs "0123456789abcdefghijklmnopqrstuvwxyz" := by
  have : ∀ n : Fin 256, (isHash (UInt8.ofNat n.1) = true ↔ UInt8.ofNat n.1 ∈ bs "0123456789abcdefghijklmnopqrstuvwxyz") := by decide +kernel
  have h := this ⟨b.toNat, b.toNat_lt⟩
  simpa using h

/-- Every letter becomes the small one, everything else stays. -/
theorem lower_spec (s : Bytes) : lower s = s.map (fun b =>
    (((bs "ABCDEFGHIJKLMNOPQRSTUVWXYZ").zip (bs "abcdefghijklmnopqrstuvwxyz")).lookup b).getD b) := by
  unfold lower
  apply List.map_congr_left
  intro b _
  have : ∀ n : Fin 256, (if 65 ≤ UInt8.ofNat n.1 ∧ UInt8.ofNat n.1 ≤ 90 then UInt8.ofNat n.1 + 32 else UInt8.ofNat n.1) =
      (((bs "ABCDEFGHIJKLMNOPQRSTUVWXYZ").zip (bs "abcdefghijklmnopqrstuvwxyz")).lookup (UInt8.ofNat n.1)).getD (UInt8.ofNat n.1) := by
    decide +kernel
  have h := this ⟨b.toNat, b.toNat_lt⟩
  simpa using h

/-- Kinds of groups that are not built in are shown with the group. -/
theorem completeGVK_iff (builtIn : Bytes → Bool) (api kind : Bytes) :
    ((api = [] ∨ builtIn api = true) → completeGVK builtIn api kind = kind) ∧
    (api ≠ [] → builtIn api = false → completeGVK builtIn api kind = api ++ 47 :: kind) := by
  unfold completeGVK
  constructor
  · intro h
    by_cases h1 : api = []
    · rw [if_pos h1]
    · rw [if_neg h1, if_pos (h.resolve_left h1)]
  · intro h1 h2
    rw [if_neg h1, h2]
    simp [bs]

end Kindling.K8s
