import Verif.Dec
/-
Trace files of the camera exporter.  component/consumer/exporter/cameraexporter/filewriter.go, datehelper.go and
pkg/filepathhelper/filepath.go.
-/
namespace Kindling.Export.Files

/-! ### Rotation -/

structure File where
  name : Bytes
  mtime : Nat
deriving DecidableEq

/-- A directory of a process and the names the removing goroutines have not come to yet. -/
structure St where
  files : List File
  pending : List Bytes
deriving DecidableEq

/-- `rotateFiles` (filewriter.go:113-140): the names to remove; `none` is a panic.  `ord` is the result of
`getDirEntryInTimeOrder`.  For a limit of 1 the slice expression exceeds the length: it panics, or, when there is spare
capacity, the goroutine panics on the nil entry. -/
def rotate (max : Int) (ord : List File) : Option (List Bytes) :=
  if max ≤ 0 then some []
  else if (ord.length : Int) < max then some []
  else
    let n := (ord.length : Int) - max / 2 + 1
    if n > ord.length then none else some ((ord.take n.toNat).map (·.name))

/-- `os.Create`. -/
def create (fs : List File) (name : Bytes) (t : Nat) : List File :=
  fs.filter (fun f => f.name != name) ++ [⟨name, t⟩]

/-- What happens to a directory.  `ord` is the order in which the entries are listed, `t` the time of the writing. -/
inductive Op
  | write (ord : List File) (name : Bytes) (t : Nat)
  | append (name : Bytes) (t : Nat)
  | remove (name : Bytes)

/-- `writeFile` (filewriter.go:87-111), `writeCpuEvents` (175-205, it only opens existing files) and one step of a
removing goroutine (filewriter.go:133-138). -/
def step (max : Int) (s : St) : Op → Option St
  | .write ord name t => match rotate max ord with
    | none => none
    | some names => some ⟨create s.files name t, s.pending ++ names⟩
  | .append name t => some { s with files := s.files.map (fun f => if f.name = name then ⟨name, t⟩ else f) }
  | .remove name => some (if name ∈ s.pending then ⟨s.files.filter (fun f => f.name != name), s.pending.erase name⟩ else s)

/-- Entries are listed by modification time; the order of equal times is not determined. -/
def Valid (s : St) : Op → Prop
  | .write ord _ _ => ord.Perm s.files ∧ ord.Pairwise (fun a b => a.mtime ≤ b.mtime)
  | _ => True

inductive Reach (max : Int) : St → Prop
  | init : Reach max ⟨[], []⟩
  | step {s s' : St} (o : Op) (h : Reach max s) (hv : Valid s o) (hs : step max s o = some s') : Reach max s'

/-- Spec: the files nobody is about to remove. -/
def live (s : St) : List File := s.files.filter (fun f => decide (f.name ∉ s.pending))

def names (s : St) : List Bytes := s.files.map (·.name)

theorem names_create (fs : List File) (name : Bytes) (t : Nat) (h : (fs.map (·.name)).Nodup) :
    ((create fs name t).map (·.name)).Nodup := by
  unfold create
  rw [List.map_append, List.nodup_append]
  refine ⟨?_, by simp, ?_⟩
  · exact h.sublist (List.filter_sublist.map _)
  · intro a ha b hb
    simp only [List.map_cons, List.map_nil, List.mem_singleton] at hb
    subst hb
    obtain ⟨f, hf, rfl⟩ := List.mem_map.1 ha
    have := (List.mem_filter.1 hf).2
    simpa using this

theorem nodup_names {max : Int} {s : St} (h : Reach max s) : (names s).Nodup := by
  unfold names
  induction h with
  | init => simp
  | step o _ hv hs ih =>
    cases o with
    | write ord name t =>
      simp only [step] at hs
      split at hs
      · cases hs
      · simp only [Option.some.injEq] at hs
        subst hs
        exact names_create _ _ _ ih
    | append name t =>
      simp only [step, Option.some.injEq] at hs
      subst hs
      simp only [List.map_map]
      have : (File.name ∘ fun f : File => if f.name = name then (⟨name, t⟩ : File) else f) = File.name := by
        funext f
        simp only [Function.comp]
        split
        · rename_i h; exact h.symm
        · rfl
      rw [this]
      exact ih
    | remove name =>
      simp only [step, Option.some.injEq] at hs
      subst hs
      split
      · exact ih.sublist (List.filter_sublist.map _)
      · exact ih

theorem rotate_some {max : Int} (hm : 2 ≤ max) (ord : List File) :
    ∃ n : Nat, rotate max ord = some ((ord.take n).map (·.name)) ∧ n ≤ ord.length ∧
      ((ord.length : Int) < max → n = 0) ∧ (max ≤ ord.length → (ord.length - n : Nat) = max / 2 - 1) := by
  unfold rotate
  rw [if_neg (by omega)]
  split
  · rename_i h
    exact ⟨0, rfl, Nat.zero_le _, fun _ => rfl, fun h' => by omega⟩
  · rename_i h
    have h2 : max / 2 ≥ 1 := by omega
    refine ⟨((ord.length : Int) - max / 2 + 1).toNat, ?_, by omega, fun h' => absurd h' h, fun _ => by omega⟩
    simp only
    rw [if_neg (by omega)]

/-- C53, bound.  For a limit of at least 2, at every moment the files that no goroutine is about to remove are at most
as many as the limit; so are all files whenever the goroutines are done. -/
theorem files_bounded_partial {max : Int} (hm : 2 ≤ max) {s : St} (h : Reach max s) :
    ((live s).length : Int) ≤ max ∧ (s.pending = [] → (s.files.length : Int) ≤ max) := by
  have hlive : ((live s).length : Int) ≤ max := by
    induction h with
    | init => simp [live]; omega
    | step o hr hv hs ih =>
      rename_i s s'
      cases o with
      | write ord name t =>
        obtain ⟨n, hn1, hn2, hn3, hn4⟩ := rotate_some hm ord
        simp only [step, hn1, Option.some.injEq] at hs
        subst hs
        have hperm := hv.1
        have hlen : ord.length = s.files.length := hperm.length_eq
        unfold live create
        rw [List.filter_append, List.length_append]
        simp only
        have h1 : (List.filter (fun f : File => decide (f.name ∉ s.pending ++ (ord.take n).map (·.name)))
            [(⟨name, t⟩ : File)]).length ≤ 1 := by
          refine Nat.le_trans (List.length_filter_le _ _) ?_
          simp
        by_cases hlt : (ord.length : Int) < max
        · have h2 : (List.filter (fun f : File => decide (f.name ∉ s.pending ++ (ord.take n).map (·.name)))
              (s.files.filter (fun f => f.name != name))).length ≤ s.files.length :=
            Nat.le_trans (List.length_filter_le _ _) (List.length_filter_le _ _)
          omega
        · have h3 := hn4 (by omega)
          have h2 : (List.filter (fun f : File => decide (f.name ∉ s.pending ++ (ord.take n).map (·.name)))
              (s.files.filter (fun f => f.name != name))).length ≤ (ord.drop n).length := by
            have p : (List.filter (fun f : File => decide (f.name ∉ s.pending ++ (ord.take n).map (·.name)))
                (s.files.filter (fun f => f.name != name))).length ≤
                (List.filter (fun f : File => decide (f.name ∉ (ord.take n).map (·.name))) s.files).length := by
              rw [List.filter_filter]
              have : ∀ l : List File, (l.filter (fun a => decide (a.name ∉ s.pending ++ (ord.take n).map (·.name)) && (a.name != name))).length ≤
                  (l.filter (fun f => decide (f.name ∉ (ord.take n).map (·.name)))).length := by
                intro l
                induction l with
                | nil => simp
                | cons a r ih =>
                  rw [List.filter_cons, List.filter_cons]
                  by_cases ha : decide (a.name ∉ s.pending ++ (ord.take n).map (·.name)) && (a.name != name)
                  · have hb : decide (a.name ∉ (ord.take n).map (·.name)) = true := by
                      simp only [Bool.and_eq_true, decide_eq_true_eq, List.mem_append, not_or] at ha
                      exact decide_eq_true ha.1.2
                    rw [if_pos ha, if_pos hb]
                    simp only [List.length_cons]
                    omega
                  · rw [if_neg ha]
                    split
                    · simp only [List.length_cons]; omega
                    · exact ih
              exact this _
            refine Nat.le_trans p ?_
            rw [← (hperm.filter (fun f : File => decide (f.name ∉ (ord.take n).map (·.name)))).length_eq]
            conv => lhs; rw [← List.take_append_drop n ord]
            rw [List.filter_append]
            have e : (ord.take n).filter (fun f : File => decide (f.name ∉ (List.take n (ord.take n ++ ord.drop n)).map (·.name))) = [] := by
              rw [List.filter_eq_nil_iff]
              intro f hf hc
              simp only [decide_eq_true_eq] at hc
              apply hc
              rw [List.take_append_drop]
              exact List.mem_map.2 ⟨f, hf, rfl⟩
            rw [e]
            simp only [List.nil_append]
            exact List.length_filter_le _ _
          rw [List.length_drop] at h2
          omega
      | append name t =>
        simp only [step, Option.some.injEq] at hs
        subst hs
        unfold live at *
        rw [List.filter_map]
        have : (fun f : File => decide (f.name ∉ s.pending)) ∘ (fun f => if f.name = name then (⟨name, t⟩ : File) else f) =
            (fun f => decide (f.name ∉ s.pending)) := by
          funext f
          simp only [Function.comp]
          split
          · rename_i h; rw [h]
          · rfl
        simp only [List.length_map]
        rw [this]
        exact ih
      | remove name =>
        simp only [step, Option.some.injEq] at hs
        subst hs
        split
        · have : (live ⟨s.files.filter (fun f => f.name != name), s.pending.erase name⟩).length ≤ (live s).length := by
            unfold live
            simp only [List.filter_filter]
            have : ∀ l : List File, (l.filter (fun a => decide (a.name ∉ s.pending.erase name) && (a.name != name))).length ≤
                (l.filter (fun f => decide (f.name ∉ s.pending))).length := by
              intro l
              induction l with
              | nil => simp
              | cons a r ih =>
                rw [List.filter_cons, List.filter_cons]
                by_cases ha : decide (a.name ∉ s.pending.erase name) && (a.name != name)
                · have hb : decide (a.name ∉ s.pending) = true := by
                    simp only [Bool.and_eq_true, decide_eq_true_eq, bne_iff_ne] at ha
                    exact decide_eq_true (fun hc => ha.1 ((List.mem_erase_of_ne ha.2).2 hc))
                  rw [if_pos ha, if_pos hb]
                  simp only [List.length_cons]
                  omega
                · rw [if_neg ha]
                  split
                  · simp only [List.length_cons]; omega
                  · exact ih
            exact this _
          omega
        · exact ih
  refine ⟨hlive, fun hp => ?_⟩
  have : live s = s.files := by
    unfold live
    rw [hp, List.filter_eq_self]
    intro f _
    simp
  rw [← this]
  exact hlive

/-- C53, choice.  A rotation marks the oldest files, all but `max / 2 - 1`, and the new file. -/
theorem oldest_removed {max : Int} (hm : 2 ≤ max) (s s' : St) (ord : List File) (name : Bytes) (t : Nat)
    (hv : Valid s (.write ord name t)) (hs : step max s (.write ord name t) = some s') (hfull : max ≤ s.files.length) :
    ∃ old kept, s.files.Perm (old ++ kept) ∧ s'.pending = s.pending ++ old.map (·.name) ∧ (kept.length : Int) = max / 2 - 1 ∧
      (∀ a ∈ old, ∀ b ∈ kept, a.mtime ≤ b.mtime) ∧ (⟨name, t⟩ : File) ∈ s'.files := by
  obtain ⟨n, hn1, hn2, hn3, hn4⟩ := rotate_some hm ord
  have hlen : ord.length = s.files.length := hv.1.length_eq
  simp only [step, hn1, Option.some.injEq] at hs
  subst hs
  refine ⟨ord.take n, ord.drop n, ?_, rfl, ?_, ?_, ?_⟩
  · rw [List.take_append_drop]; exact hv.1.symm
  · rw [List.length_drop]; exact hn4 (by omega)
  · have h := hv.2
    rw [← List.take_append_drop n ord, List.pairwise_append] at h
    exact h.2.2
  · simp [create]

/-- Below the limit nothing is removed. -/
theorem few_kept {max : Int} (s s' : St) (ord : List File) (name : Bytes) (t : Nat)
    (hv : Valid s (.write ord name t)) (hs : step max s (.write ord name t) = some s') (h : (s.files.length : Int) < max ∨ max ≤ 0) :
    s'.pending = s.pending ∧ ∀ f ∈ s.files, f.name ≠ name → f ∈ s'.files := by
  have hlen : ord.length = s.files.length := hv.1.length_eq
  have hr : rotate max ord = some [] := by
    unfold rotate
    split
    · rfl
    · rw [if_pos (by omega)]
  simp only [step, hr, Option.some.injEq] at hs
  subst hs
  refine ⟨by simp, fun f hf hn => ?_⟩
  unfold create
  simp only [List.mem_append, List.mem_filter]
  exact Or.inl ⟨hf, by simpa using hn⟩

/-- A file disappears only when a goroutine that has its name removes it. -/
theorem only_marked_removed {max : Int} (s s' : St) (o : Op) (hs : step max s o = some s') (x : Bytes) (hx : x ∈ names s)
    (hx' : x ∉ names s') : o = .remove x ∧ x ∈ s.pending := by
  unfold names at *
  cases o with
  | write ord name t =>
    simp only [step] at hs
    split at hs
    · cases hs
    · simp only [Option.some.injEq] at hs
      subst hs
      exfalso
      apply hx'
      obtain ⟨f, hf, rfl⟩ := List.mem_map.1 hx
      unfold create
      simp only [List.map_append, List.map_cons, List.map_nil, List.mem_append, List.mem_singleton]
      by_cases he : f.name = name
      · exact Or.inr he
      · exact Or.inl (List.mem_map.2 ⟨f, List.mem_filter.2 ⟨hf, by simpa using he⟩, rfl⟩)
  | append name t =>
    simp only [step, Option.some.injEq] at hs
    subst hs
    exfalso
    apply hx'
    obtain ⟨f, hf, rfl⟩ := List.mem_map.1 hx
    refine List.mem_map.2 ⟨_, List.mem_map.2 ⟨f, hf, rfl⟩, ?_⟩
    split
    · rename_i h; exact h.symm
    · rfl
  | remove name =>
    simp only [step, Option.some.injEq] at hs
    subst hs
    by_cases hp : name ∈ s.pending
    · rw [if_pos hp] at hx'
      obtain ⟨f, hf, rfl⟩ := List.mem_map.1 hx
      by_cases he : f.name = name
      · rw [he]; exact ⟨rfl, hp⟩
      · exfalso
        apply hx'
        exact List.mem_map.2 ⟨f, List.mem_filter.2 ⟨hf, by simpa using he⟩, rfl⟩
    · rw [if_neg hp] at hx'
      exact absurd hx hx'

/-- Finding: a limit of 1 crashes the process at the second trace. -/
theorem limit_one_panics (s : St) (ord : List File) (name : Bytes) (t : Nat) (hv : Valid s (.write ord name t)) (hne : s.files ≠ []) :
    step 1 s (.write ord name t) = none := by
  have hlen : ord.length = s.files.length := hv.1.length_eq
  have : 0 < s.files.length := List.length_pos_iff.2 hne
  have hr : rotate 1 ord = none := by
    unfold rotate
    rw [if_neg (by decide), if_neg (by omega)]
    simp only
    rw [if_pos (by omega)]
  simp only [step, hr]

/-- Finding: a file written under a name that still waits for its removal is removed too. -/
theorem rewritten_file_lost {max : Int} (s s1 s2 : St) (ord : List File) (name : Bytes) (t : Nat)
    (h1 : step max s (.write ord name t) = some s1) (hp : name ∈ s1.pending) (h2 : step max s1 (.remove name) = some s2) :
    name ∈ names s1 ∧ name ∉ names s2 := by
  constructor
  · simp only [step] at h1
    split at h1
    · cases h1
    · simp only [Option.some.injEq] at h1
      subst h1
      simp [names, create]
  · simp only [step, if_pos hp, Option.some.injEq] at h2
    subst h2
    unfold names
    intro hc
    obtain ⟨f, hf, he⟩ := List.mem_map.1 hc
    have := (List.mem_filter.1 hf).2
    simp at this
    exact this he

/-! ### Path elements -/

inductive V
  | str (s : Bytes)
  | int (n : Int)
  | bool (b : Bool)

/-- `GetStringValue` and so on (model/attribute_map.go:71-121). -/
def gs (m : AMap Bytes V) (k : Bytes) : Bytes := match m.get k with
  | some (.str s) => s
  | _ => []
def gi (m : AMap Bytes V) (k : Bytes) : Int := match m.get k with
  | some (.int n) => n
  | _ => 0
def gb (m : AMap Bytes V) (k : Bytes) : Bool := match m.get k with
  | some (.bool b) => b
  | _ => false

/-- `FilePathElements` (filepath.go:8-17). -/
structure Elems where
  workload : Bytes
  pod : Bytes
  container : Bytes
  pid : Int
  isServer : Bool
  protocol : Bytes
  timestamp : Nat
  contentKey : Bytes
deriving DecidableEq

/-- Conversion of a 64 bit number to the signed and the unsigned type. -/
def toI64 (n : Nat) : Int := if n % 2 ^ 64 < 2 ^ 63 then ((n % 2 ^ 64 : Nat) : Int) else ((n % 2 ^ 64 : Nat) : Int) - 2 ^ 64
def toU64 (i : Int) : Nat := (i % 2 ^ 64).toNat

/-- `ToAttributes` (filepath.go:19-35). -/
def toAttributes (e : Elems) : AMap Bytes V :=
  let a : AMap Bytes V := AMap.set [] (bs "is_server") (.bool e.isServer)
  let b : AMap Bytes V := if e.isServer then
      ((a.set (bs "dst_workload_name") (.str e.workload)).set (bs "dst_pod") (.str e.pod)).set (bs "dst_container") (.str e.container)
    else ((a.set (bs "src_workload_name") (.str e.workload)).set (bs "src_pod") (.str e.pod)).set (bs "src_container") (.str e.container)
  ((b.set (bs "protocol") (.str e.protocol)).set (bs "content_key") (.str e.contentKey)).set (bs "timestamp") (.int (toI64 e.timestamp))

def orDefault (s d : Bytes) : Bytes := if s.length = 0 then d else s

/-- `GetFilePathElements` (filepath.go:37-73). -/
def getElems (m : AMap Bytes V) (timestamp : Nat) : Elems :=
  let srv := gb m (bs "is_server")
  { workload := orDefault (if srv then gs m (bs "dst_workload_name") else gs m (bs "src_workload_name")) (bs "NoWorkloadName")
    pod := orDefault (if srv then gs m (bs "dst_pod") else gs m (bs "src_pod")) (bs "NoPodName")
    container := orDefault (if srv then gs m (bs "dst_container") else gs m (bs "src_container")) (bs "NoContainerName")
    pid := gi m (bs "pid")
    isServer := srv
    protocol := gs m (bs "protocol")
    timestamp := timestamp
    contentKey := gs m (bs "content_key") }

/-- `Merge` (model/attribute_map.go:49-56). -/
def merge (m other : AMap Bytes V) : AMap Bytes V := other.foldl (fun a e => a.set e.1 e.2) m

/-- The path elements of a group of CPU events: `writeCpuEvents` (filewriter.go:176-177) reads the time from a label. -/
def cpuElems (m : AMap Bytes V) : Elems := getElems m (toU64 (gi m (bs "timestamp")))

theorem toU64_toI64 (n : Nat) (h : n < 2 ^ 64) : toU64 (toI64 n) = n := by
  unfold toU64 toI64
  rw [Nat.mod_eq_of_lt h]
  split <;> omega

theorem get_merge (m other : AMap Bytes V) (k : Bytes) (hw : AMap.WF other) :
    (merge m other).get k = match other.get k with
      | some v => some v
      | none => m.get k := by
  unfold merge
  induction other generalizing m with
  | nil => rfl
  | cons e r ih =>
    have hw' : AMap.WF r ∧ e.1 ∉ AMap.keys r := by
      unfold AMap.WF AMap.keys at *
      simp only [List.map_cons, List.nodup_cons] at hw
      exact ⟨hw.2, hw.1⟩
    rw [List.foldl_cons, ih _ hw'.1]
    obtain ⟨k', v'⟩ := e
    by_cases hk : k' = k
    · subst hk
      have hn : AMap.get r k' = none := (AMap.get_eq_none_iff r k').2 hw'.2
      rw [hn]
      simp [AMap.get]
    · simp only [AMap.get]
      rw [if_neg hk, AMap.get_set_ne _ _ hk]

theorem wf_toAttributes (e : Elems) : AMap.WF (toAttributes e) := by
  unfold toAttributes
  simp only
  split <;> exact ((((((AMap.wf_nil.set _ _).set _ _).set _ _).set _ _).set _ _).set _ _).set _ _

/-- C54.  The elements read from a trace are those read from the CPU events that carry them, for events of this
process. -/
theorem elements_survive_partial (trace : AMap Bytes V) (ts : Nat) (hts : ts < 2 ^ 64) (seg : AMap Bytes V)
    (hpid : gi seg (bs "pid") = gi trace (bs "pid")) :
    cpuElems (merge seg (toAttributes (getElems trace ts))) = getElems trace ts := by
  have key : ∀ (e : Elems), e.timestamp < 2 ^ 64 → e.workload ≠ [] → e.pod ≠ [] → e.container ≠ [] → gi seg (bs "pid") = e.pid →
      cpuElems (merge seg (toAttributes e)) = e := by
    intro e h0 h1 h2 h3 hp
    have hw := wf_toAttributes e
    obtain ⟨w, p, c, pid, srv, pr, t, ck⟩ := e
    simp only at h0 h1 h2 h3 hp
    have d : ∀ s : Bytes, s ≠ [] → ∀ x, orDefault s x = s := by
      intro s hs x
      unfold orDefault
      rw [if_neg (fun h => hs (List.length_eq_zero_iff.1 h))]
    cases srv <;>
    · unfold cpuElems getElems gi gs gb
      simp only [get_merge _ _ _ hw]
      simp only [toAttributes]
      unfold gi at hp
      simp [AMap.get_set, bs, d _ h1, d _ h2, d _ h3, toU64_toI64 t h0]
      simpa [bs] using hp
  have dn : ∀ s x : Bytes, x ≠ [] → orDefault s x ≠ [] := by
    intro s x hx
    unfold orDefault
    split
    · exact hx
    · rename_i h; intro hc; rw [hc] at h; exact h rfl
  exact key _ hts (dn _ _ (by decide)) (dn _ _ (by decide)) (dn _ _ (by decide)) hpid

/-- The attributes alone do not carry the process: without the label of the events it is lost. -/
theorem pid_not_in_attributes (e : Elems) : (cpuElems (toAttributes e)).pid = 0 := by
  unfold cpuElems getElems gi toAttributes
  cases e.isServer <;> simp [AMap.get_set, bs]

/-- Names that are missing are replaced, others kept. -/
theorem names_read (m : AMap Bytes V) (ts : Nat) :
    let e := getElems m ts
    let side := fun (a b : Bytes) => if gb m (bs "is_server") then gs m a else gs m b
    (side (bs "dst_workload_name") (bs "src_workload_name") ≠ [] → e.workload = side (bs "dst_workload_name") (bs "src_workload_name")) ∧
    (side (bs "dst_pod") (bs "src_pod") ≠ [] → e.pod = side (bs "dst_pod") (bs "src_pod")) ∧
    (side (bs "dst_container") (bs "src_container") ≠ [] → e.container = side (bs "dst_container") (bs "src_container")) ∧
    e.workload ≠ [] ∧ e.pod ≠ [] ∧ e.container ≠ [] := by
  intro e side
  have d : ∀ s x : Bytes, s ≠ [] → orDefault s x = s := by
    intro s x hs
    unfold orDefault
    rw [if_neg (fun h => hs (List.length_eq_zero_iff.1 h))]
  have dn : ∀ s x : Bytes, x ≠ [] → orDefault s x ≠ [] := by
    intro s x hx
    unfold orDefault
    split
    · exact hx
    · rename_i h; intro hc; rw [hc] at h; exact h rfl
  exact ⟨fun h => d _ _ h, fun h => d _ _ h, fun h => d _ _ h, dn _ _ (by decide), dn _ _ (by decide), dn _ _ (by decide)⟩

/-! ### Names of files -/

/-- The characters of the URL alphabet of `encoding/base64`. -/
def b64 (n : Nat) : UInt8 :=
  if n < 26 then UInt8.ofNat (65 + n) else if n < 52 then UInt8.ofNat (71 + n) else if n < 62 then UInt8.ofNat (n - 4)
  else if n = 62 then 45 else 95

/-- `base64.URLEncoding.EncodeToString` (RFC 4648, with padding). -/
def encode64 : Bytes → Bytes
  | [] => []
  | [a] => [b64 (a.toNat / 4), b64 (a.toNat % 4 * 16), 61, 61]
  | [a, b] => [b64 (a.toNat / 4), b64 (a.toNat % 4 * 16 + b.toNat / 16), b64 (b.toNat % 16 * 4), 61]
  | a :: b :: c :: r => [b64 (a.toNat / 4), b64 (a.toNat % 4 * 16 + b.toNat / 16), b64 (b.toNat % 16 * 4 + c.toNat / 64), b64 (c.toNat % 64)] ++
      encode64 r

theorem b64_inj {m n : Nat} (hm : m < 64) (hn : n < 64) (h : b64 m = b64 n) : m = n := by
  have : ∀ m : Fin 64, ∀ n : Fin 64, b64 m.1 = b64 n.1 → m = n := by decide +kernel
  have := this ⟨m, hm⟩ ⟨n, hn⟩ h
  exact congrArg Fin.val this

theorem b64_ne_pad {m : Nat} (hm : m < 64) : b64 m ≠ 61 := by
  have : ∀ m : Fin 64, b64 m.1 ≠ 61 := by decide +kernel
  exact this ⟨m, hm⟩

theorem encode64_inj (x y : Bytes) (h : encode64 x = encode64 y) : x = y := by
  have lt : ∀ a : UInt8, a.toNat < 256 := fun a => a.toNat_lt
  have eq : ∀ a b : UInt8, a.toNat = b.toNat → a = b := fun a b h => UInt8.toNat_inj.1 h
  fun_induction encode64 x generalizing y with
  | case1 =>
    fun_cases encode64 y
    · rfl
    all_goals simp [encode64] at h
  | case2 a =>
    have ha := lt a
    fun_cases encode64 y
    · simp [encode64] at h
    · rename_i b
      have hb := lt b
      simp only [encode64, List.cons.injEq, and_true] at h
      have e1 := b64_inj (by omega) (by omega) h.1
      have e2 := b64_inj (by omega) (by omega) h.2
      rw [eq a b (by omega)]
    · rename_i b c
      have hc := lt c
      simp only [encode64, List.cons.injEq, and_true] at h
      exact absurd h.2.2.symm (b64_ne_pad (by omega))
    · rename_i b c d r
      have hd := lt d
      simp only [encode64, List.cons_append, List.nil_append, List.cons.injEq] at h
      exact absurd h.2.2.2.1.symm (b64_ne_pad (by omega))
  | case3 a a' =>
    have ha := lt a
    have ha' := lt a'
    fun_cases encode64 y
    · simp [encode64] at h
    · rename_i b
      simp only [encode64, List.cons.injEq, and_true] at h
      exact absurd h.2.2 (b64_ne_pad (by omega))
    · rename_i b b'
      have hb := lt b
      have hb' := lt b'
      simp only [encode64, List.cons.injEq, and_true] at h
      have e1 := b64_inj (by omega) (by omega) h.1
      have e2 := b64_inj (by omega) (by omega) h.2.1
      have e3 := b64_inj (by omega) (by omega) h.2.2
      rw [eq a b (by omega), eq a' b' (by omega)]
    · rename_i b c d r
      have hd := lt d
      simp only [encode64, List.cons_append, List.nil_append, List.cons.injEq] at h
      exact absurd h.2.2.2.1.symm (b64_ne_pad (by omega))
  | case4 a a' a'' r ih =>
    have ha := lt a
    have ha' := lt a'
    have ha'' := lt a''
    fun_cases encode64 y
    · simp [encode64] at h
    · rename_i b
      simp only [encode64, List.cons_append, List.nil_append, List.cons.injEq] at h
      exact absurd h.2.2.2.1 (b64_ne_pad (by omega))
    · rename_i b b'
      simp only [encode64, List.cons_append, List.nil_append, List.cons.injEq] at h
      exact absurd h.2.2.2.1 (b64_ne_pad (by omega))
    · rename_i b b' b'' r'
      have hb := lt b
      have hb' := lt b'
      have hb'' := lt b''
      simp only [encode64, List.cons_append, List.nil_append, List.cons.injEq] at h
      have e1 := b64_inj (by omega) (by omega) h.1
      have e2 := b64_inj (by omega) (by omega) h.2.1
      have e3 := b64_inj (by omega) (by omega) h.2.2.1
      have e4 := b64_inj (by omega) (by omega) h.2.2.2.1
      rw [eq a b (by omega), eq a' b' (by omega), eq a'' b'' (by omega), ih r' h.2.2.2.2]

/-- `dateToString` (datehelper.go:18-24). -/
def dateToString (n : Nat) : Bytes := if n ≤ 9 then bs "0" ++ Dec.digits n else Dec.digits n

/-- Year, month, day, hour, minute and second in local time (`time.Time.Date`, `Clock`). -/
structure Civil where
  year : Nat
  month : Nat
  day : Nat
  hour : Nat
  minute : Nat
  second : Nat

/-- `getDateString` (datehelper.go:8-16) of a time after 1970. -/
def dateString (c : Civil) (nano : Nat) : Bytes :=
  dateToString c.year ++ dateToString c.month ++ dateToString c.day ++ dateToString c.hour ++ dateToString c.minute ++
  dateToString c.second ++ bs "." ++ dateToString nano

/-- `getFileName` (filewriter.go:58-67). -/
def fileName (date protocol contentKey : Bytes) (isServer : Bool) : Bytes :=
  date ++ bs "_" ++ protocol ++ bs "_" ++ encode64 contentKey ++ bs "_" ++ (if isServer then bs "true" else bs "false")

/-- `pidFilePath` (filewriter.go:53-56), the directory below the storage path. -/
def dirName (workload pod container : Bytes) (pid : Int) : Bytes :=
  workload ++ bs "_" ++ pod ++ bs "_" ++ container ++ bs "_" ++ Dec.formatInt pid

theorem cut {x : UInt8} {a b a' b' : Bytes} (ha : x ∉ a) (ha' : x ∉ a') (h : a ++ x :: b = a' ++ x :: b') : a = a' ∧ b = b' := by
  induction a generalizing a' with
  | nil =>
    cases a' with
    | nil => simpa using h
    | cons y r =>
      simp only [List.nil_append, List.cons_append, List.cons.injEq] at h
      rw [← h.1] at ha'
      simp at ha'
  | cons y r ih =>
    cases a' with
    | nil =>
      simp only [List.nil_append, List.cons_append, List.cons.injEq] at h
      rw [h.1] at ha
      simp at ha
    | cons z s =>
      simp only [List.cons_append, List.cons.injEq] at h
      obtain ⟨rfl, h⟩ := h
      have := ih (a' := s) (fun hc => ha (by simp [hc])) (fun hc => ha' (by simp [hc])) h
      exact ⟨by rw [this.1], this.2⟩

theorem formatInt_clean (n : Int) : (95 : UInt8) ∉ Dec.formatInt n := by
  intro h
  unfold Dec.formatInt at h
  have dig : ∀ k, (95 : UInt8) ∉ Dec.digits k := by
    intro k hk
    have := (Dec.digits_all k _ hk).2
    simp at this
  split at h
  · have h' : (95 : UInt8) ∈ bs "-" ++ Dec.digits n.natAbs := h
    rcases List.mem_append.1 h' with h' | h'
    · simp [bs] at h'
    · exact dig _ h'
  · exact dig _ h

/-- C79.  Different processes have different directories (Kubernetes names have no underscore). -/
theorem dirs_distinct (w p c w' p' c' : Bytes) (i i' : Int) (hw : 95 ∉ w) (hp : 95 ∉ p) (hc : 95 ∉ c) (hw' : 95 ∉ w') (hp' : 95 ∉ p')
    (hc' : 95 ∉ c') (h : dirName w p c i = dirName w' p' c' i') : w = w' ∧ p = p' ∧ c = c' ∧ i = i' := by
  unfold dirName at h
  have e : bs "_" = [95] := by decide
  simp only [e, List.append_assoc, List.singleton_append] at h
  obtain ⟨h1, h⟩ := cut hw hw' h
  obtain ⟨h2, h⟩ := cut hp hp' h
  obtain ⟨h3, h⟩ := cut hc hc' h
  exact ⟨h1, h2, h3, Dec.formatInt_inj h⟩

/-- C79.  Different traces have different files: time, protocol, content key and role can be read back from the
name. -/
theorem files_distinct (d d' p p' k k' : Bytes) (s s' : Bool) (hd : 95 ∉ d) (hd' : 95 ∉ d') (hp : 95 ∉ p) (hp' : 95 ∉ p')
    (h : fileName d p k s = fileName d' p' k' s') : d = d' ∧ p = p' ∧ k = k' ∧ s = s' := by
  unfold fileName at h
  have e : bs "_" = [95] := by decide
  simp only [e, List.append_assoc, List.singleton_append] at h
  obtain ⟨h1, h⟩ := cut hd hd' h
  obtain ⟨h2, h⟩ := cut hp hp' h
  have hs : s = s' := by
    have hl := congrArg List.getLast? h
    have ht : bs "true" = [116, 114, 117, 101] := by decide
    have hf : bs "false" = [102, 97, 108, 115, 101] := by decide
    have hr := congrArg List.reverse h
    cases s <;> cases s' <;> simp [ht, hf] at hr ⊢
  subst hs
  have h' : encode64 k ++ (95 :: if s then bs "true" else bs "false") = encode64 k' ++ (95 :: if s then bs "true" else bs "false") := h
  exact ⟨h1, h2, encode64_inj _ _ (List.append_cancel_right h'), rfl⟩

theorem dateToString_clean (n : Nat) : ∀ b ∈ dateToString n, 48 ≤ b.toNat ∧ b.toNat ≤ 57 := by
  intro b hb
  unfold dateToString at hb
  split at hb
  · rcases List.mem_append.1 hb with h | h
    · have : b = 48 := by simpa [bs] using h
      subst this
      decide
    · exact Dec.digits_all n b h
  · exact Dec.digits_all n b hb

/-- Dates have no underscore. -/
theorem date_clean (c : Civil) (nano : Nat) : 95 ∉ dateString c nano := by
  intro h
  unfold dateString at h
  have e : bs "." = [46] := by decide
  simp only [e, List.mem_append, List.mem_singleton] at h
  have f : ∀ n, (95 : UInt8) ∉ dateToString n := by
    intro n hn
    have := (dateToString_clean n _ hn).2
    simp at this
  rcases h with ((((((h | h) | h) | h) | h) | h) | h) | h
  all_goals first | exact f _ h | (revert h; decide)

theorem dateToString_inj {m n : Nat} (h : dateToString m = dateToString n) : m = n := by
  have hp : ∀ n, Dec.foldDigits 0 (dateToString n) = some n := by
    intro n
    unfold dateToString
    split
    · rw [Dec.foldDigits_append]
      have : Dec.foldDigits 0 (bs "0") = some 0 := by decide
      rw [this]
      exact Dec.foldDigits_digits n
    · exact Dec.foldDigits_digits n
  have h1 := hp m
  rw [h, hp n] at h1
  exact (Option.some.inj h1).symm

theorem dateToString_length {n : Nat} (h : n < 100) : (dateToString n).length = 2 := by
  have key : ∀ n : Fin 100, (dateToString n.1).length = 2 := by
    intro n
    unfold dateToString
    split
    · rename_i h9
      rw [List.length_append]
      rw [Dec.digits]
      rw [if_pos (by omega)]
      rfl
    · rename_i h9
      rw [Dec.digits, if_neg (by omega), List.length_append, Dec.digits, if_pos (by omega)]
      rfl
  exact key ⟨n, h⟩

/-- Months to seconds are below 100. -/
def Civil.Ok (c : Civil) : Prop := c.month < 100 ∧ c.day < 100 ∧ c.hour < 100 ∧ c.minute < 100 ∧ c.second < 100

theorem cut_right {a b x y : Bytes} (h : a ++ x = b ++ y) (hl : x.length = y.length) : a = b ∧ x = y := by
  have h1 : a.length = b.length := by
    have := congrArg List.length h
    simp only [List.length_append] at this
    omega
  exact List.append_inj h h1

/-- Different civil times or nanoseconds give different dates. -/
theorem dates_distinct (c c' : Civil) (n n' : Nat) (hc : c.Ok) (hc' : c'.Ok) (h : dateString c n = dateString c' n') : c = c' ∧ n = n' := by
  unfold dateString at h
  have e : bs "." = [46] := by decide
  have f : ∀ n, (46 : UInt8) ∉ dateToString n := by
    intro n hn
    have := (dateToString_clean n _ hn).1
    simp at this
  simp only [e] at h
  rw [List.append_assoc, List.append_assoc (dateToString c'.year ++ _ ++ _ ++ _ ++ _ ++ _)] at h
  simp only [List.singleton_append] at h
  obtain ⟨h, hn⟩ := cut (by simp [f]) (by simp [f]) h
  obtain ⟨o1, o2, o3, o4, o5⟩ := hc
  obtain ⟨p1, p2, p3, p4, p5⟩ := hc'
  obtain ⟨h, e5⟩ := cut_right h (by rw [dateToString_length o5, dateToString_length p5])
  obtain ⟨h, e4⟩ := cut_right h (by rw [dateToString_length o4, dateToString_length p4])
  obtain ⟨h, e3⟩ := cut_right h (by rw [dateToString_length o3, dateToString_length p3])
  obtain ⟨h, e2⟩ := cut_right h (by rw [dateToString_length o2, dateToString_length p2])
  obtain ⟨h, e1⟩ := cut_right h (by rw [dateToString_length o1, dateToString_length p1])
  obtain ⟨y, m, d, hh, mm, ss⟩ := c
  obtain ⟨y', m', d', hh', mm', ss'⟩ := c'
  simp only at *
  rw [dateToString_inj h, dateToString_inj e1, dateToString_inj e2, dateToString_inj e3, dateToString_inj e4, dateToString_inj e5,
    dateToString_inj hn]
  exact ⟨rfl, rfl⟩

/-- C79: two traces of one process share a file only if they agree in time, protocol, content key and role. -/
theorem traces_distinct (c c' : Civil) (n n' : Nat) (hc : c.Ok) (hc' : c'.Ok) (p p' k k' : Bytes) (s s' : Bool) (hp : 95 ∉ p) (hp' : 95 ∉ p')
    (h : fileName (dateString c n) p k s = fileName (dateString c' n') p' k' s') : c = c' ∧ n = n' ∧ p = p' ∧ k = k' ∧ s = s' := by
  obtain ⟨h1, h2, h3, h4⟩ := files_distinct _ _ _ _ _ _ _ _ (date_clean c n) (date_clean c' n') hp hp' h
  obtain ⟨h5, h6⟩ := dates_distinct c c' n n' hc hc' h1
  exact ⟨h5, h6, h2, h3, h4⟩

/-! ### Examples -/

/-- Three traces with a limit of 2: the first two are removed. -/
example : ∃ s, Reach 2 s ∧ s.files = [⟨bs "c", 3⟩] ∧ s.pending = [] := by
  have r0 : Reach 2 ⟨[], []⟩ := .init
  have r1 : Reach 2 ⟨[⟨bs "a", 1⟩], []⟩ := .step (.write [] (bs "a") 1) r0 ⟨List.Perm.refl _, List.Pairwise.nil⟩ (by decide)
  have r2 : Reach 2 ⟨[⟨bs "a", 1⟩, ⟨bs "b", 2⟩], []⟩ :=
    .step (.write [⟨bs "a", 1⟩] (bs "b") 2) r1 ⟨List.Perm.refl _, by simp⟩ (by decide)
  have r3 : Reach 2 ⟨[⟨bs "a", 1⟩, ⟨bs "b", 2⟩, ⟨bs "c", 3⟩], [bs "a", bs "b"]⟩ :=
    .step (.write [⟨bs "a", 1⟩, ⟨bs "b", 2⟩] (bs "c") 3) r2 ⟨List.Perm.refl _, by simp⟩ (by decide)
  have r4 : Reach 2 ⟨[⟨bs "b", 2⟩, ⟨bs "c", 3⟩], [bs "b"]⟩ := .step (.remove (bs "a")) r3 trivial (by decide)
  exact ⟨_, .step (.remove (bs "b")) r4 trivial rfl, by decide, by decide⟩

example : encode64 (bs "/a?>") = bs "L2E_Pg==" := by decide

/-! ### Details -/

theorem b64_alphabet (n : Nat) (hn : n < 64) :
    (bs "ABCDEFGHIJKLMNOPQRSTUVWXYZabcdefghijklmnopqrstuvwxyz0123456789-_")[n]? = some (b64 n) := by
  have : ∀ m : Fin 64, (bs "ABCDEFGHIJKLMNOPQRSTUVWXYZabcdefghijklmnopqrstuvwxyz0123456789-_")[m.1]? = some (b64 m.1) := by decide +kernel
  exact this ⟨n, hn⟩

/-- The number written by digits of a base, most significant first. -/
def value (base : Nat) (l : List Nat) : Nat := l.foldl (fun a d => a * base + d) 0

/-- Base 64 writes the bytes as one number: three bytes are four digits, of two or one bytes the bits are filled up
with zeros and the digits with padding. -/
theorem encode64_value (x : Bytes) : ∃ ds : List Nat, (∀ d ∈ ds, d < 64) ∧ ∃ pad : Nat, pad < 3 ∧ (x.length + pad) % 3 = 0 ∧
    encode64 x = ds.map b64 ++ List.replicate pad 61 ∧
    value 64 ds * 64 ^ pad = value 256 (x.map (·.toNat)) * 256 ^ pad ∧ ds.length + pad = (x.length + pad) / 3 * 4 := by
  have lt : ∀ a : UInt8, a.toNat < 256 := fun a => a.toNat_lt
  have hv : ∀ (b : Nat) (l : List Nat) (a : Nat), l.foldl (fun a d => a * b + d) a = a * b ^ l.length + value b l := by
    intro b l
    induction l with
    | nil => intro a; simp [value]
    | cons d r ih =>
      intro a
      simp only [List.foldl_cons, List.length_cons, value]
      rw [ih, ih (0 * b + d)]
      rw [Nat.pow_succ, Nat.add_mul, Nat.add_mul]
      simp only [Nat.zero_mul]
      rw [Nat.mul_assoc, Nat.mul_comm b]
      omega
  fun_induction encode64 x with
  | case1 => exact ⟨[], by simp, 0, by omega, by simp, by simp, by simp [value], by simp⟩
  | case2 a =>
    have := lt a
    refine ⟨[a.toNat / 4, a.toNat % 4 * 16], ?_, 2, by omega, by simp, by simp [List.replicate], ?_, by simp⟩
    · intro d hd
      simp only [List.mem_cons, List.not_mem_nil, or_false] at hd
      rcases hd with rfl | rfl <;> omega
    · simp only [value, List.foldl_cons, List.foldl_nil, List.map_cons, List.map_nil]; omega
  | case3 a b =>
    have := lt a
    have := lt b
    refine ⟨[a.toNat / 4, a.toNat % 4 * 16 + b.toNat / 16, b.toNat % 16 * 4], ?_, 1, by omega, by simp, by simp [List.replicate], ?_, by simp⟩
    · intro d hd
      simp only [List.mem_cons, List.not_mem_nil, or_false] at hd
      rcases hd with rfl | rfl | rfl <;> omega
    · simp only [value, List.foldl_cons, List.foldl_nil, List.map_cons, List.map_nil]; omega
  | case4 a b c r ih =>
    have := lt a
    have := lt b
    have := lt c
    obtain ⟨ds, h1, pad, h2, h3, h4, h5, h6⟩ := ih
    refine ⟨[a.toNat / 4, a.toNat % 4 * 16 + b.toNat / 16, b.toNat % 16 * 4 + c.toNat / 64, c.toNat % 64] ++ ds, ?_, pad, h2, ?_, ?_, ?_, ?_⟩
    · intro d hd
      simp only [List.mem_append, List.mem_cons, List.not_mem_nil, or_false] at hd
      rcases hd with (rfl | rfl | rfl | rfl) | hd
      · omega
      · omega
      · omega
      · omega
      · exact h1 d hd
    · simp only [List.length_cons]; omega
    · rw [h4]; simp
    · have e1 : value 64 ([a.toNat / 4, a.toNat % 4 * 16 + b.toNat / 16, b.toNat % 16 * 4 + c.toNat / 64, c.toNat % 64] ++ ds) =
          (a.toNat * 65536 + b.toNat * 256 + c.toNat) * 64 ^ ds.length + value 64 ds := by
        unfold value
        rw [List.foldl_append, hv]
        congr 2
        simp only [List.foldl_cons, List.foldl_nil]
        omega
      have e2 : value 256 ((a :: b :: c :: r).map (·.toNat)) =
          (a.toNat * 65536 + b.toNat * 256 + c.toNat) * 256 ^ r.length + value 256 (r.map (·.toNat)) := by
        unfold value
        simp only [List.map_cons, List.foldl_cons]
        rw [hv, List.length_map]
        unfold value
        have : ((0 * 256 + a.toNat) * 256 + b.toNat) * 256 + c.toNat = a.toNat * 65536 + b.toNat * 256 + c.toNat := by omega
        rw [this]
      rw [e1, e2]
      generalize a.toNat * 65536 + b.toNat * 256 + c.toNat = w
      rw [Nat.add_mul, Nat.add_mul, h5, Nat.mul_assoc, Nat.mul_assoc, ← Nat.pow_add, ← Nat.pow_add]
      obtain ⟨q, hq1, hq2⟩ : ∃ q, r.length + pad = 3 * q ∧ ds.length + pad = 4 * q := ⟨(r.length + pad) / 3, by omega, by omega⟩
      rw [hq1, hq2, Nat.pow_mul, Nat.pow_mul]
    · simp only [List.length_append, List.length_cons, List.length_nil]; omega

theorem toI64_spec (n : Nat) : (n < 2 ^ 63 → toI64 n = n) ∧ (2 ^ 63 ≤ n → n < 2 ^ 64 → toI64 n = (n : Int) - 2 ^ 64) := by
  unfold toI64
  constructor
  · intro h; rw [if_pos (by omega)]; omega
  · intro h h2; rw [if_neg (by omega)]; omega

theorem gb_iff (m : AMap Bytes V) (k : Bytes) : gb m k = true ↔ m.get k = some (.bool true) := by
  unfold gb
  split
  · rename_i b h; rw [h]; simp
  · rename_i h
    constructor
    · intro hc; cases hc
    · intro hc; exact absurd hc (h true)

example : encode64 (bs "/a") = bs "L2E=" := by decide

/-- C79: a name of a file has no path separator, whatever the content key is. -/
theorem name_has_no_separator (c : Civil) (nano : Nat) (p k : Bytes) (s : Bool) (hp : 47 ∉ p) : 47 ∉ fileName (dateString c nano) p k s := by
  have hd : ∀ n, (47 : UInt8) ∉ dateToString n := by
    intro n hn
    have := (dateToString_clean n _ hn).1
    simp at this
  have he : (47 : UInt8) ∉ encode64 k := by
    obtain ⟨ds, hds, pad, -, -, e, -⟩ := encode64_value k
    rw [e]
    intro h
    rcases List.mem_append.1 h with h | h
    · obtain ⟨d, hd, h⟩ := List.mem_map.1 h
      have : ∀ m : Fin 64, b64 m.1 ≠ 47 := by decide +kernel
      exact this ⟨d, hds d hd⟩ h
    · exact absurd (List.eq_of_mem_replicate h) (by decide)
  unfold fileName dateString
  have e1 : bs "." = [46] := by decide
  have e2 : bs "_" = [95] := by decide
  have e3 : (47 : UInt8) ∉ (if s then bs "true" else bs "false") := by cases s <;> decide
  simp only [e1, e2, List.mem_append, List.mem_singleton, hd, hp, he, e3, or_false, false_or]
  decide

/-- C79, finding: the content key is in the name at four thirds of its length and nothing cuts it.  With a content key of 180
bytes the name is longer than the 255 bytes a name may have on Linux, so that the file cannot be created. -/
theorem long_key_long_name (d p k : Bytes) (s : Bool) (h : 180 ≤ k.length) (hd : 16 ≤ d.length) : 255 < (fileName d p k s).length := by
  obtain ⟨ds, -, pad, h1, h2, e, -, h3⟩ := encode64_value k
  have hl : (encode64 k).length = ds.length + pad := by rw [e]; simp
  have hs : 4 ≤ (if s then bs "true" else bs "false").length := by cases s <;> decide
  have hu : (bs "_").length = 1 := by decide
  unfold fileName
  simp only [List.length_append, hu, hl]
  omega

example : (47 : UInt8) ∉ bs "http" ∧ 180 ≤ (List.replicate 180 (97 : UInt8)).length ∧ 16 ≤ (dateString ⟨2023, 1, 2, 3, 4, 5⟩ 7).length := by
  decide +kernel

end Kindling.Export.Files
