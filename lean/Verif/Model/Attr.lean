import Verif.Basic
/-
Attribute maps with the memory they share.

`collector/pkg/model/attribute_map.go`: a map from names to *pointers* to typed values.  `Add...`
stores a new pointer, `UpdateAdd...` writes through the stored one, `Clone` copies the values and
`Merge` copies the pointers.  The memory cells are therefore explicit.  A map is known by its
number, as a Go variable of type `*AttributeMap` would; a dead one (`none`) is a map no variable
refers to any more.

Simplified: integers are unbounded (they are only stored and read back), the JSON methods are not
modelled.
-/
namespace Kindling.Model.Attr

/-- `stringValue`, `intValue`, `boolValue` (attribute_map.go:199-271). -/
inductive Val where
  | str (s : String)
  | int (n : Int)
  | bool (b : Bool)
deriving DecidableEq, Repr

inductive Ty where
  | str | int | bool
deriving DecidableEq, Repr

/-- `Type()`. -/
def Val.ty : Val → Ty
  | .str _ => .str
  | .int _ => .int
  | .bool _ => .bool

/-- `Reset()`: the zero value of the type (attribute_map.go:217-219, 243-245, 269-271). -/
def Val.zero : Ty → Val
  | .str => .str ""
  | .int => .int 0
  | .bool => .bool false

abbrev RMap := AMap String Nat

/-- Cells and maps. -/
structure St where
  heap : List Val
  maps : List (Option RMap)

def init : St := ⟨[], []⟩

/-- `AddStringValue`, `AddIntValue`, `AddBoolValue` (attribute_map.go:79-83, 101-105, 123-127). -/
def addTo (h : List Val) (m : RMap) (k : String) (v : Val) : List Val × RMap :=
  (h ++ [v], AMap.set m k h.length)

/-- `UpdateAdd...Value` (attribute_map.go:85-91, 107-113, 129-135): through the pointer when there is
one; `none` is the panic of the type assertion. -/
def updateAddTo (h : List Val) (m : RMap) (k : String) (v : Val) : Option (List Val × RMap) :=
  match AMap.get m k with
  | none => some (addTo h m k v)
  | some r => match h[r]? with
    | none => none
    | some w => if w.ty = v.ty then some (h.set r v, m) else none

/-- `Clone` (attribute_map.go:175-191). -/
def cloneMap (h : List Val) (m : RMap) : List Val × RMap :=
  m.foldl (fun a e => match h[e.2]? with
    | none => a
    | some v => addTo a.1 a.2 e.1 v) (h, [])

/-- `Merge` (attribute_map.go:49-56). -/
def mergeMap (m other : RMap) : RMap := other.foldl (fun a e => AMap.set a e.1 e.2) m

/-- `ResetValues` (attribute_map.go:164-168). -/
def resetMap (h : List Val) (m : RMap) : List Val :=
  m.foldl (fun a e => a.modify e.2 (fun v => Val.zero v.ty)) h

/-- The operations of a program on its maps.  `mergeDrop i j` is `mᵢ.Merge(mⱼ)` when `mⱼ` is not
used any more, which is how the analyzers use it (network_analyzer.go:718, 776); `merge` keeps
`mⱼ`. -/
inductive Op where
  | new
  | add (i : Nat) (k : String) (v : Val)
  | updateAdd (i : Nat) (k : String) (v : Val)
  | remove (i : Nat) (k : String)
  | clear (i : Nat)
  | reset (i : Nat)
  | clone (i : Nat)
  | mergeDrop (i j : Nat)
deriving DecidableEq

/-- The live map with this number. -/
def live (σ : St) (i : Nat) : Option RMap := (σ.maps[i]?).getD none

/-- One operation; `none` is a panic (nil map or type assertion). -/
def step (σ : St) : Op → Option St
  | .new => some ⟨σ.heap, σ.maps ++ [some []]⟩
  | .add i k v => match live σ i with
    | none => none
    | some m => some ⟨(addTo σ.heap m k v).1, σ.maps.set i (some (addTo σ.heap m k v).2)⟩
  | .updateAdd i k v => match live σ i with
    | none => none
    | some m => match updateAddTo σ.heap m k v with
      | none => none
      | some r => some ⟨r.1, σ.maps.set i (some r.2)⟩
  | .remove i k => match live σ i with
    | none => none
    | some m => some ⟨σ.heap, σ.maps.set i (some (AMap.del m k))⟩
  | .clear i => match live σ i with
    | none => none
    | some _ => some ⟨σ.heap, σ.maps.set i (some [])⟩
  | .reset i => match live σ i with
    | none => none
    | some m => some ⟨resetMap σ.heap m, σ.maps⟩
  | .clone i => match live σ i with
    | none => none
    | some m => some ⟨(cloneMap σ.heap m).1, σ.maps ++ [some (cloneMap σ.heap m).2]⟩
  | .mergeDrop i j => match live σ i, live σ j with
    | some m, some m' => if i = j then some σ
        else some ⟨σ.heap, (σ.maps.set i (some (mergeMap m m'))).set j none⟩
    | _, _ => none

/-- `Merge` that keeps the other map. -/
def merge (σ : St) (i j : Nat) : Option St := match live σ i, live σ j with
  | some m, some m' => some ⟨σ.heap, σ.maps.set i (some (mergeMap m m'))⟩
  | _, _ => none

def run (σ : St) : List Op → Option St
  | [] => some σ
  | o :: os => match step σ o with
    | none => none
    | some σ' => run σ' os

/-- What a map holds under a name. -/
def read (σ : St) (i : Nat) (k : String) : Option Val :=
  ((live σ i).bind (fun m => AMap.get m k)).bind (fun r => σ.heap[r]?)

/-- `GetStringValue`, `GetIntValue`, `GetBoolValue` (attribute_map.go:71-77, 93-99, 115-121). -/
def getStr : Option Val → String
  | some (.str s) => s
  | _ => ""
def getInt : Option Val → Int
  | some (.int n) => n
  | _ => 0
def getBool : Option Val → Bool
  | some (.bool b) => b
  | _ => false

/-! ### Specification: maps without memory

A map is a function from names to values; an operation changes the map it names and no other. -/

abbrev VMap : Type := String → Option Val
abbrev Spec : Type := List (Option VMap)

def upd (f : VMap) (k : String) (v : Option Val) : VMap := fun k' => if k' = k then v else f k'

def emptyV : VMap := fun _ => none

def slive (s : Spec) (i : Nat) : Option VMap := (s[i]?).getD none

def sstep (s : Spec) : Op → Option Spec
  | .new => some (s ++ [some emptyV])
  | .add i k v => match slive s i with
    | none => none
    | some f => some (s.set i (some (upd f k (some v))))
  | .updateAdd i k v => match slive s i with
    | none => none
    | some f => match f k with
      | none => some (s.set i (some (upd f k (some v))))
      | some w => if w.ty = v.ty then some (s.set i (some (upd f k (some v)))) else none
  | .remove i k => match slive s i with
    | none => none
    | some f => some (s.set i (some (upd f k none)))
  | .clear i => match slive s i with
    | none => none
    | some _ => some (s.set i (some emptyV))
  | .reset i => match slive s i with
    | none => none
    | some f => some (s.set i (some (fun k => (f k).map (fun v => Val.zero v.ty))))
  | .clone i => match slive s i with
    | none => none
    | some f => some (s ++ [some f])
  | .mergeDrop i j => match slive s i, slive s j with
    | some f, some f' => if i = j then some s
        else some ((s.set i (some (fun k => (f' k).or (f k)))).set j none)
    | _, _ => none

def srun (s : Spec) : List Op → Option Spec
  | [] => some s
  | o :: os => match sstep s o with
    | none => none
    | some s' => srun s' os

/-- The meaning of one map. -/
def meaning (h : List Val) (m : RMap) : VMap := fun k => (AMap.get m k).bind (fun r => h[r]?)

def abs (σ : St) : Spec := σ.maps.map (fun x => x.map (meaning σ.heap))

/-! ### The cells are not shared -/

structure Sep (σ : St) : Prop where
  wf : ∀ i m, live σ i = some m → AMap.WF m
  bound : ∀ i m k r, live σ i = some m → AMap.get m k = some r → r < σ.heap.length
  inj : ∀ i j m m' k k' r, live σ i = some m → live σ j = some m' →
    AMap.get m k = some r → AMap.get m' k' = some r → i = j ∧ k = k'

theorem live_init (i : Nat) : live init i = none := by simp [live, init]

theorem sep_init : Sep init :=
  ⟨fun i m h => by simp [live_init] at h, fun i m k r h => by simp [live_init] at h,
    fun i j m m' k k' r h => by simp [live_init] at h⟩

theorem live_lt {σ : St} {i : Nat} {m : RMap} (h : live σ i = some m) : i < σ.maps.length := by
  unfold live at h
  by_cases hi : i < σ.maps.length
  · exact hi
  · rw [List.getElem?_eq_none (by omega)] at h; cases h

theorem live_set {hp : List Val} {ms : List (Option RMap)} {i j : Nat} {x : Option RMap} (hi : i < ms.length) :
    live ⟨hp, ms.set i x⟩ j = if i = j then x else live ⟨hp, ms⟩ j := by
  unfold live
  simp only
  by_cases h : i = j
  · subst h; simp [hi]
  · rw [List.getElem?_set_ne h, if_neg h]

theorem live_heap {hp hp' : List Val} {ms : List (Option RMap)} {j : Nat} : live ⟨hp, ms⟩ j = live ⟨hp', ms⟩ j := rfl

theorem live_snoc {hp : List Val} {ms : List (Option RMap)} {j : Nat} {x : Option RMap} :
    live ⟨hp, ms ++ [x]⟩ j = if j = ms.length then x else live ⟨hp, ms⟩ j := by
  unfold live
  simp only
  by_cases h : j = ms.length
  · subst h; simp
  · rw [if_neg h]
    by_cases h2 : j < ms.length
    · rw [List.getElem?_append_left h2]
    · rw [List.getElem?_eq_none (by simp; omega), List.getElem?_eq_none (by omega)]

theorem slive_abs (σ : St) (i : Nat) : slive (abs σ) i = (live σ i).map (meaning σ.heap) := by
  unfold slive abs live
  rw [List.getElem?_map]
  cases σ.maps[i]? with
  | none => rfl
  | some x => rfl

/-- Two states with the same meaning map by map. -/
theorem abs_ext {hp hp' : List Val} {ms ms' : List (Option RMap)} (hl : ms.length = ms'.length)
    (h : ∀ i, (live ⟨hp, ms⟩ i).map (meaning hp) = (live ⟨hp', ms'⟩ i).map (meaning hp')) :
    abs ⟨hp, ms⟩ = abs ⟨hp', ms'⟩ := by
  apply List.ext_getElem?
  intro i
  have := h i
  simp only [abs, List.getElem?_map]
  unfold live at this
  simp only at this
  by_cases hi : i < ms.length
  · rw [List.getElem?_eq_getElem hi, List.getElem?_eq_getElem (by omega : i < ms'.length)] at this ⊢
    simpa using this
  · rw [List.getElem?_eq_none (by omega), List.getElem?_eq_none (by omega)]; rfl

theorem abs_set {σ : St} {i : Nat} (hi : i < σ.maps.length) {hp' : List Val} {m' : Option RMap}
    (hother : ∀ j m, j ≠ i → live σ j = some m → meaning hp' m = meaning σ.heap m) :
    abs ⟨hp', σ.maps.set i m'⟩ = (abs σ).set i (m'.map (meaning hp')) := by
  apply List.ext_getElem?
  intro j
  simp only [abs, List.getElem?_map]
  by_cases hij : i = j
  · subst hij
    rw [List.getElem?_set_self hi, List.getElem?_set_self (by simpa using hi)]
    rfl
  · rw [List.getElem?_set_ne hij, List.getElem?_set_ne hij, List.getElem?_map]
    cases hx : σ.maps[j]? with
    | none => rfl
    | some x =>
      cases x with
      | none => rfl
      | some m =>
        have : live σ j = some m := by simp [live, hx]
        simp [hother j m (Ne.symm hij) this]

theorem abs_snoc {σ : St} {hp' : List Val} {m' : Option RMap}
    (hother : ∀ j m, live σ j = some m → meaning hp' m = meaning σ.heap m) :
    abs ⟨hp', σ.maps ++ [m']⟩ = abs σ ++ [m'.map (meaning hp')] := by
  simp only [abs, List.map_append, List.map_cons, List.map_nil]
  congr 1
  apply List.map_congr_left
  intro x hx
  cases x with
  | none => rfl
  | some m =>
    obtain ⟨j, hj⟩ := List.getElem?_of_mem hx
    have : live σ j = some m := by simp [live, hj]
    simp [hother j m this]

theorem meaning_append {h h' : List Val} {m : RMap} (hb : ∀ k r, AMap.get m k = some r → r < h.length) :
    meaning (h ++ h') m = meaning h m := by
  funext k
  unfold meaning
  cases hk : AMap.get m k with
  | none => rfl
  | some r => simp only [Option.bind_some]; rw [List.getElem?_append_left (hb k r hk)]

theorem meaning_addTo {h : List Val} {m : RMap} {k : String} {v : Val}
    (hb : ∀ k r, AMap.get m k = some r → r < h.length) :
    meaning (addTo h m k v).1 (addTo h m k v).2 = upd (meaning h m) k (some v) := by
  funext k'
  unfold meaning upd addTo
  simp only [AMap.get_set]
  by_cases hk : k = k'
  · subst hk; simp
  · rw [if_neg hk, if_neg (Ne.symm hk)]
    cases hg : AMap.get m k' with
    | none => rfl
    | some r => simp only [Option.bind_some]; rw [List.getElem?_append_left (hb k' r hg)]

theorem get_mergeMap {other : RMap} (hw : AMap.WF other) (m : RMap) (k : String) :
    AMap.get (mergeMap m other) k = (AMap.get other k).or (AMap.get m k) := by
  unfold mergeMap
  induction other generalizing m with
  | nil => rfl
  | cons e r ih =>
    obtain ⟨k0, r0⟩ := e
    have hwr : AMap.WF r := by
      simp only [AMap.WF, AMap.keys, List.map_cons, List.nodup_cons] at hw ⊢; exact hw.2
    have hk0 : AMap.get r k0 = none := by
      rw [AMap.get_eq_none_iff]
      simp only [AMap.WF, AMap.keys, List.map_cons, List.nodup_cons] at hw ⊢; exact hw.1
    simp only [List.foldl_cons]
    rw [ih hwr, AMap.get_set]
    simp only [AMap.get]
    by_cases h : k0 = k
    · subst h; simp [hk0]
    · simp [h]

theorem wf_mergeMap {other : RMap} (m : RMap) (hw : AMap.WF m) : AMap.WF (mergeMap m other) := by
  unfold mergeMap
  induction other generalizing m with
  | nil => exact hw
  | cons e r ih => exact ih _ (hw.set _ _)

open Classical in
/-- Resetting changes exactly the cells of the map. -/
theorem resetMap_get (m : RMap) (hw : ∀ k k' r, AMap.get m k = some r → AMap.get m k' = some r → k = k')
    (hwf : AMap.WF m) (h : List Val) (r : Nat) :
    (resetMap h m)[r]? = if ∃ k, AMap.get m k = some r then (h[r]?).map (fun v => Val.zero v.ty) else h[r]? := by
  unfold resetMap
  induction m generalizing h with
  | nil => simp
  | cons e t ih =>
    obtain ⟨k0, r0⟩ := e
    have hwft : AMap.WF t := by
      simp only [AMap.WF, AMap.keys, List.map_cons, List.nodup_cons] at hwf ⊢; exact hwf.2
    have hk0 : AMap.get t k0 = none := by
      rw [AMap.get_eq_none_iff]
      simp only [AMap.WF, AMap.keys, List.map_cons, List.nodup_cons] at hwf ⊢; exact hwf.1
    have hsub : ∀ k r, AMap.get t k = some r → AMap.get ((k0, r0) :: t) k = some r := by
      intro k r hk
      simp only [AMap.get]
      rw [if_neg]
      · exact hk
      · rintro rfl; rw [hk0] at hk; cases hk
    have hwt : ∀ k k' r, AMap.get t k = some r → AMap.get t k' = some r → k = k' :=
      fun k k' r h1 h2 => hw k k' r (hsub k r h1) (hsub k' r h2)
    simp only [List.foldl_cons]
    rw [ih hwt hwft]
    by_cases hr : r0 = r
    · subst hr
      have hno : ¬ ∃ k, AMap.get t k = some r0 := by
        rintro ⟨k, hk⟩
        have := hw k k0 r0 (hsub k r0 hk) (by simp [AMap.get])
        subst this; rw [hk0] at hk; cases hk
      rw [if_neg hno, if_pos ⟨k0, by simp [AMap.get]⟩, List.getElem?_modify_eq]; rfl
    · rw [List.getElem?_modify_ne _ _ hr]
      have : (∃ k, AMap.get t k = some r) ↔ ∃ k, AMap.get ((k0, r0) :: t) k = some r := by
        constructor
        · rintro ⟨k, hk⟩; exact ⟨k, hsub k r hk⟩
        · rintro ⟨k, hk⟩
          simp only [AMap.get] at hk
          split at hk
          · cases hk; exact absurd rfl hr
          · exact ⟨k, hk⟩
      simp only [this]

theorem resetMap_length (m : RMap) (h : List Val) : (resetMap h m).length = h.length := by
  unfold resetMap
  induction m generalizing h with
  | nil => rfl
  | cons e t ih => simp only [List.foldl_cons]; rw [ih]; simp

/-- The copy made by `Clone`: fresh cells, one per name, with the same values. -/
theorem cloneMap_spec (h : List Val) (m : RMap) (hwf : AMap.WF m)
    (hb : ∀ k r, AMap.get m k = some r → r < h.length) :
    ∃ ext, (cloneMap h m).1 = h ++ ext ∧ AMap.WF (cloneMap h m).2 ∧
      (∀ k r, AMap.get (cloneMap h m).2 k = some r → h.length ≤ r ∧ r < h.length + ext.length) ∧
      (∀ k k' r, AMap.get (cloneMap h m).2 k = some r → AMap.get (cloneMap h m).2 k' = some r → k = k') ∧
      meaning (cloneMap h m).1 (cloneMap h m).2 = meaning h m := by
  have key : ∀ (t : RMap) (acc : List Val × RMap), AMap.WF t →
      (∀ k r, AMap.get t k = some r → r < h.length) →
      (∀ k, AMap.get acc.2 k ≠ none → AMap.get t k = none) →
      (∃ ext, acc.1 = h ++ ext ∧ AMap.WF acc.2 ∧
        (∀ k r, AMap.get acc.2 k = some r → h.length ≤ r ∧ r < h.length + ext.length) ∧
        (∀ k k' r, AMap.get acc.2 k = some r → AMap.get acc.2 k' = some r → k = k')) →
      ∃ ext, (t.foldl (fun a e => match h[e.2]? with
          | none => a
          | some v => addTo a.1 a.2 e.1 v) acc).1 = h ++ ext ∧
        AMap.WF (t.foldl (fun a e => match h[e.2]? with
          | none => a
          | some v => addTo a.1 a.2 e.1 v) acc).2 ∧
        (∀ k r, AMap.get (t.foldl (fun a e => match h[e.2]? with
          | none => a
          | some v => addTo a.1 a.2 e.1 v) acc).2 k = some r → h.length ≤ r ∧ r < h.length + ext.length) ∧
        (∀ k k' r, AMap.get (t.foldl (fun a e => match h[e.2]? with
          | none => a
          | some v => addTo a.1 a.2 e.1 v) acc).2 k = some r → AMap.get (t.foldl (fun a e => match h[e.2]? with
          | none => a
          | some v => addTo a.1 a.2 e.1 v) acc).2 k' = some r → k = k') ∧
        (∀ k, meaning (t.foldl (fun a e => match h[e.2]? with
          | none => a
          | some v => addTo a.1 a.2 e.1 v) acc).1 (t.foldl (fun a e => match h[e.2]? with
          | none => a
          | some v => addTo a.1 a.2 e.1 v) acc).2 k = (meaning h t k).or (meaning acc.1 acc.2 k)) := by
    intro t
    induction t with
    | nil =>
      rintro acc _ _ _ ⟨ext, h1, h2, h3, h4⟩
      exact ⟨ext, h1, h2, h3, h4, fun k => by simp [meaning]⟩
    | cons e t ih =>
      obtain ⟨k0, r0⟩ := e
      rintro acc hwt hbt hdis ⟨ext, h1, h2, h3, h4⟩
      have hwf' : AMap.WF t := by
        simp only [AMap.WF, AMap.keys, List.map_cons, List.nodup_cons] at hwt ⊢; exact hwt.2
      have hk0 : AMap.get t k0 = none := by
        rw [AMap.get_eq_none_iff]
        simp only [AMap.WF, AMap.keys, List.map_cons, List.nodup_cons] at hwt ⊢; exact hwt.1
      have hr0 : r0 < h.length := hbt k0 r0 (by simp [AMap.get])
      have hbt' : ∀ k r, AMap.get t k = some r → r < h.length := by
        intro k r hk
        refine hbt k r ?_
        simp only [AMap.get]
        rw [if_neg]
        · exact hk
        · rintro rfl; rw [hk0] at hk; cases hk
      have hacc0 : AMap.get acc.2 k0 = none := by
        cases hg : AMap.get acc.2 k0 with
        | none => rfl
        | some r =>
          have := hdis k0 (by simp [hg])
          simp [AMap.get] at this
      simp only [List.foldl_cons, List.getElem?_eq_getElem hr0]
      have hlen : acc.1.length = h.length + ext.length := by rw [h1]; simp
      have hstep := ih (addTo acc.1 acc.2 k0 h[r0]) hwf' hbt' (by
          intro k hk
          simp only [addTo, AMap.get_set] at hk
          by_cases hkk : k0 = k
          · subst hkk; exact hk0
          · rw [if_neg hkk] at hk
            have := hdis k hk
            simp only [AMap.get, hkk, ↓reduceIte] at this
            exact this)
        ⟨ext ++ [h[r0]], by simp [addTo, h1], h2.set _ _, by
          intro k r hk
          simp only [addTo, AMap.get_set] at hk
          simp only [List.length_append, List.length_singleton]
          split at hk
          · cases hk; omega
          · have := h3 k r hk; omega, by
          intro k k' r hk hk'
          simp only [addTo, AMap.get_set] at hk hk'
          split at hk
          · cases hk
            split at hk'
            · subst_vars; rfl
            · have := h3 k' _ hk'; omega
          · split at hk'
            · cases hk'; have := h3 k _ hk; omega
            · exact h4 k k' r hk hk'⟩
      obtain ⟨ext', g1, g2, g3, g4, g5⟩ := hstep
      refine ⟨ext', g1, g2, g3, g4, fun k => ?_⟩
      rw [g5 k, meaning_addTo (by intro k r hk; have := h3 k r hk; omega)]
      simp only [upd, meaning, AMap.get]
      by_cases hkk : k = k0
      · subst hkk
        simp [hk0, List.getElem?_eq_getElem hr0]
      · simp [hkk, Ne.symm hkk]
  obtain ⟨ext, g1, g2, g3, g4, g5⟩ := key m (h, []) hwf hb (by simp) ⟨[], by simp, by simp, by simp, by simp⟩
  refine ⟨ext, g1, g2, g3, g4, ?_⟩
  funext k
  have := g5 k
  simp only [meaning, AMap.get_nil, Option.bind_none, Option.or_none] at this
  exact this

/-- Replacing map `i` by a map whose cells are its own or fresh keeps cells unshared. -/
theorem sep_set {σ : St} (hs : Sep σ) {i : Nat} (hi : i < σ.maps.length) {hp' : List Val} {m' : RMap}
    (hlen : σ.heap.length ≤ hp'.length) (hwf : AMap.WF m')
    (hb : ∀ k r, AMap.get m' k = some r → r < hp'.length)
    (hself : ∀ k k' r, AMap.get m' k = some r → AMap.get m' k' = some r → k = k')
    (hown : ∀ j m k k' r, j ≠ i → live σ j = some m → AMap.get m k = some r → AMap.get m' k' = some r → False) :
    Sep ⟨hp', σ.maps.set i (some m')⟩ := by
  refine ⟨?_, ?_, ?_⟩
  · intro j m hj
    rw [live_set hi] at hj
    split at hj
    · cases hj; exact hwf
    · exact hs.wf j m hj
  · intro j m k r hj hk
    rw [live_set hi] at hj
    split at hj
    · cases hj; exact hb k r hk
    · have := hs.bound j m k r hj hk
      simp only; omega
  · intro j j' m m2 k k' r hj hj' hk hk'
    rw [live_set hi] at hj hj'
    by_cases h1 : i = j
    · rw [if_pos h1] at hj; cases hj
      by_cases h2 : i = j'
      · rw [if_pos h2] at hj'; cases hj'
        exact ⟨h1.symm.trans h2, hself k k' r hk hk'⟩
      · rw [if_neg h2] at hj'
        exact (hown j' m2 k' k r (Ne.symm h2) hj' hk' hk).elim
    · rw [if_neg h1] at hj
      by_cases h2 : i = j'
      · rw [if_pos h2] at hj'; cases hj'
        exact (hown j m k k' r (Ne.symm h1) hj hk hk').elim
      · rw [if_neg h2] at hj'
        exact hs.inj j j' m m2 k k' r hj hj' hk hk'

theorem sep_snoc {σ : St} (hs : Sep σ) {hp' : List Val} {m' : RMap}
    (hlen : σ.heap.length ≤ hp'.length) (hwf : AMap.WF m')
    (hb : ∀ k r, AMap.get m' k = some r → σ.heap.length ≤ r ∧ r < hp'.length)
    (hself : ∀ k k' r, AMap.get m' k = some r → AMap.get m' k' = some r → k = k') :
    Sep ⟨hp', σ.maps ++ [some m']⟩ := by
  refine ⟨?_, ?_, ?_⟩
  · intro j m hj
    rw [live_snoc] at hj
    split at hj
    · cases hj; exact hwf
    · exact hs.wf j m hj
  · intro j m k r hj hk
    rw [live_snoc] at hj
    split at hj
    · cases hj; exact (hb k r hk).2
    · have := hs.bound j m k r hj hk
      simp only; omega
  · intro j j' m m2 k k' r hj hj' hk hk'
    rw [live_snoc] at hj hj'
    by_cases h1 : j = σ.maps.length
    · rw [if_pos h1] at hj; cases hj
      by_cases h2 : j' = σ.maps.length
      · rw [if_pos h2] at hj'; cases hj'
        exact ⟨h1.trans h2.symm, hself k k' r hk hk'⟩
      · rw [if_neg h2] at hj'
        have := hs.bound j' m2 k' r hj' hk'
        have := (hb k r hk).1
        omega
    · rw [if_neg h1] at hj
      by_cases h2 : j' = σ.maps.length
      · rw [if_pos h2] at hj'; cases hj'
        have := hs.bound j m k r hj hk
        have := (hb k' r hk').1
        omega
      · rw [if_neg h2] at hj'
        exact hs.inj j j' m m2 k k' r hj hj' hk hk'

theorem meaning_set_other {h : List Val} {m : RMap} {r : Nat} {v : Val}
    (hne : ∀ k, AMap.get m k ≠ some r) : meaning (h.set r v) m = meaning h m := by
  funext k
  unfold meaning
  cases hk : AMap.get m k with
  | none => rfl
  | some r' =>
    simp only [Option.bind_some]
    rw [List.getElem?_set_ne]
    rintro rfl; exact hne k hk

/-- One operation on memory is the operation on plain maps: it fails in the same cases, and keeps
the cells of different maps apart. -/
theorem step_refines {σ : St} (hs : Sep σ) (o : Op) :
    (step σ o = none ∧ sstep (abs σ) o = none) ∨
    ∃ σ', step σ o = some σ' ∧ Sep σ' ∧ sstep (abs σ) o = some (abs σ') := by
  cases o with
  | new =>
    refine Or.inr ⟨_, rfl, ?_, ?_⟩
    · exact sep_snoc hs (Nat.le_refl _) (by simp) (by simp) (by simp)
    · simp only [sstep]
      rw [abs_snoc (fun _ _ _ => rfl)]
      rfl
  | add i k v =>
    simp only [step, sstep, slive_abs]
    cases hl : live σ i with
    | none => exact Or.inl ⟨rfl, rfl⟩
    | some m =>
      have hi := live_lt hl
      have hb := fun k r => hs.bound i m k r hl
      refine Or.inr ⟨_, rfl, ?_, ?_⟩
      · refine sep_set hs hi (by simp [addTo]) ((hs.wf i m hl).set _ _) ?_ ?_ ?_
        · intro k' r hk
          simp only [addTo, AMap.get_set] at hk
          simp only [addTo, List.length_append, List.length_singleton]
          split at hk
          · cases hk; omega
          · have := hb k' r hk; omega
        · intro k1 k2 r h1 h2
          simp only [addTo, AMap.get_set] at h1 h2
          split at h1
          · cases h1
            split at h2
            · subst_vars; rfl
            · have := hb k2 _ h2; omega
          · split at h2
            · cases h2; have := hb k1 _ h1; omega
            · exact (hs.inj i i m m k1 k2 r hl hl h1 h2).2
        · intro j m2 k1 k2 r hj hj2 h1 h2
          simp only [addTo, AMap.get_set] at h2
          split at h2
          · cases h2; have := hs.bound j m2 k1 _ hj2 h1; omega
          · exact hj (hs.inj j i m2 m k1 k2 r hj2 hl h1 h2).1
      · simp only [Option.map_some]
        rw [abs_set hi (hp' := (addTo σ.heap m k v).1)
          (fun j m2 _ hj => meaning_append (fun k r => hs.bound j m2 k r hj))]
        simp only [Option.map_some, meaning_addTo hb]
  | updateAdd i k v =>
    simp only [step, sstep, slive_abs]
    cases hl : live σ i with
    | none => exact Or.inl ⟨rfl, rfl⟩
    | some m =>
      have hi := live_lt hl
      have hb := fun k r => hs.bound i m k r hl
      simp only [Option.map_some, updateAddTo]
      cases hk : AMap.get m k with
      | none =>
        have hm : meaning σ.heap m k = none := by simp [meaning, hk]
        simp only [hm]
        refine Or.inr ⟨_, rfl, ?_, ?_⟩
        · refine sep_set hs hi (by simp [addTo]) ((hs.wf i m hl).set _ _) ?_ ?_ ?_
          · intro k' r hk
            simp only [addTo, AMap.get_set] at hk
            simp only [addTo, List.length_append, List.length_singleton]
            split at hk
            · cases hk; omega
            · have := hb k' r hk; omega
          · intro k1 k2 r h1 h2
            simp only [addTo, AMap.get_set] at h1 h2
            split at h1
            · cases h1
              split at h2
              · subst_vars; rfl
              · have := hb k2 _ h2; omega
            · split at h2
              · cases h2; have := hb k1 _ h1; omega
              · exact (hs.inj i i m m k1 k2 r hl hl h1 h2).2
          · intro j m2 k1 k2 r hj hj2 h1 h2
            simp only [addTo, AMap.get_set] at h2
            split at h2
            · cases h2; have := hs.bound j m2 k1 _ hj2 h1; omega
            · exact hj (hs.inj j i m2 m k1 k2 r hj2 hl h1 h2).1
        · rw [abs_set hi (hp' := (addTo σ.heap m k v).1)
          (fun j m2 _ hj => meaning_append (fun k r => hs.bound j m2 k r hj))]
          simp only [Option.map_some, meaning_addTo hb]
      | some r =>
        have hr := hb k r hk
        have hm : meaning σ.heap m k = some σ.heap[r] := by
          simp [meaning, hk, List.getElem?_eq_getElem hr]
        simp only [hm, List.getElem?_eq_getElem hr]
        by_cases hty : σ.heap[r].ty = v.ty
        · simp only [hty, ↓reduceIte]
          refine Or.inr ⟨_, rfl, ?_, ?_⟩
          · refine sep_set hs hi (by simp) (hs.wf i m hl) ?_ ?_ ?_
            · intro k' r' hk'; simp only [List.length_set]; exact hb k' r' hk'
            · intro k1 k2 r h1 h2; exact (hs.inj i i m m k1 k2 r hl hl h1 h2).2
            · intro j m2 k1 k2 r hj hj2 h1 h2
              exact hj (hs.inj j i m2 m k1 k2 r hj2 hl h1 h2).1
          · rw [abs_set hi]
            · simp only [Option.map_some]
              congr 3
              funext k'
              simp only [upd, meaning]
              by_cases hkk : k' = k
              · subst hkk; simp [hk, hr]
              · rw [if_neg hkk]
                cases hk' : AMap.get m k' with
                | none => rfl
                | some r' =>
                  simp only [Option.bind_some]
                  rw [List.getElem?_set_ne]
                  rintro rfl
                  exact hkk (hs.inj i i m m k' k r hl hl hk' hk).2
            · intro j m2 hj hj2
              exact meaning_set_other (fun k1 h1 => hj (hs.inj j i m2 m k1 k r hj2 hl h1 hk).1)
        · simp only [hty, ↓reduceIte]
          exact Or.inl ⟨trivial, trivial⟩
  | remove i k =>
    simp only [step, sstep, slive_abs]
    cases hl : live σ i with
    | none => exact Or.inl ⟨rfl, rfl⟩
    | some m =>
      have hi := live_lt hl
      have hsub : ∀ k' r, AMap.get (AMap.del m k) k' = some r → AMap.get m k' = some r := by
        intro k' r h; rw [AMap.get_del] at h; split at h
        · cases h
        · exact h
      refine Or.inr ⟨_, rfl, ?_, ?_⟩
      · refine sep_set hs hi (Nat.le_refl _) ((hs.wf i m hl).del _) ?_ ?_ ?_
        · intro k' r h; exact hs.bound i m k' r hl (hsub k' r h)
        · intro k1 k2 r h1 h2; exact (hs.inj i i m m k1 k2 r hl hl (hsub _ _ h1) (hsub _ _ h2)).2
        · intro j m2 k1 k2 r hj hj2 h1 h2
          exact hj (hs.inj j i m2 m k1 k2 r hj2 hl h1 (hsub _ _ h2)).1
      · simp only [Option.map_some]
        rw [abs_set hi (fun _ _ _ _ => rfl)]
        simp only [Option.map_some]
        congr 3
        funext k'
        simp only [upd, meaning, AMap.get_del]
        by_cases hkk : k' = k
        · subst hkk; simp
        · rw [if_neg hkk, if_neg (Ne.symm hkk)]
  | clear i =>
    simp only [step, sstep, slive_abs]
    cases hl : live σ i with
    | none => exact Or.inl ⟨rfl, rfl⟩
    | some m =>
      have hi := live_lt hl
      refine Or.inr ⟨_, rfl, ?_, ?_⟩
      · exact sep_set hs hi (Nat.le_refl _) (by simp) (by simp) (by simp) (by simp)
      · simp only [Option.map_some]
        rw [abs_set hi (fun _ _ _ _ => rfl)]
        rfl
  | reset i =>
    simp only [step, sstep, slive_abs]
    cases hl : live σ i with
    | none => exact Or.inl ⟨rfl, rfl⟩
    | some m =>
      have hi := live_lt hl
      have hself := fun k k' r => fun h1 h2 => (hs.inj i i m m k k' r hl hl h1 h2).2
      have hget := resetMap_get m hself (hs.wf i m hl) σ.heap
      refine Or.inr ⟨_, rfl, ?_, ?_⟩
      · refine ⟨hs.wf, ?_, hs.inj⟩
        intro j m2 k r hj hk
        rw [resetMap_length]; exact hs.bound j m2 k r hj hk
      · simp only [Option.map_some]
        have hset : σ.maps = σ.maps.set i (some m) := by
          apply List.ext_getElem?
          intro j
          by_cases hij : i = j
          · subst hij
            rw [List.getElem?_set_self hi]
            unfold live at hl
            rw [List.getElem?_eq_getElem hi] at hl ⊢
            simpa using hl
          · rw [List.getElem?_set_ne hij]
        have habs : abs ⟨resetMap σ.heap m, σ.maps⟩ = abs ⟨resetMap σ.heap m, σ.maps.set i (some m)⟩ := by
          rw [← hset]
        rw [habs, abs_set hi]
        · simp only [Option.map_some]
          congr 3
          funext k
          simp only [meaning]
          cases hk : AMap.get m k with
          | none => rfl
          | some r =>
            simp only [Option.bind_some]
            rw [hget r, if_pos ⟨k, hk⟩]
        · intro j m2 hj hj2
          funext k
          simp only [meaning]
          cases hk : AMap.get m2 k with
          | none => rfl
          | some r =>
            simp only [Option.bind_some]
            rw [hget r, if_neg]
            rintro ⟨k', hk'⟩
            exact hj (hs.inj j i m2 m k k' r hj2 hl hk hk').1
  | clone i =>
    simp only [step, sstep, slive_abs]
    cases hl : live σ i with
    | none => exact Or.inl ⟨rfl, rfl⟩
    | some m =>
      obtain ⟨ext, c1, c2, c3, c4, c5⟩ := cloneMap_spec σ.heap m (hs.wf i m hl) (fun k r => hs.bound i m k r hl)
      refine Or.inr ⟨_, rfl, ?_, ?_⟩
      · refine sep_snoc hs (by rw [c1]; simp) c2 ?_ c4
        intro k r hk
        rw [c1]; simp only [List.length_append]; exact c3 k r hk
      · simp only [Option.map_some]
        rw [abs_snoc]
        · simp only [Option.map_some, c5]
        · intro j m2 hj
          rw [c1]
          exact meaning_append (fun k r => hs.bound j m2 k r hj)
  | mergeDrop i j =>
    simp only [step, sstep, slive_abs]
    cases hl : live σ i with
    | none => exact Or.inl ⟨rfl, rfl⟩
    | some m =>
      cases hl' : live σ j with
      | none => exact Or.inl ⟨rfl, rfl⟩
      | some m' =>
        simp only [Option.map_some]
        by_cases hij : i = j
        · simp only [hij, ↓reduceIte]
          exact Or.inr ⟨_, rfl, hs, rfl⟩
        · simp only [hij, ↓reduceIte]
          have hi := live_lt hl
          have hj := live_lt hl'
          have hgm := get_mergeMap (hs.wf j m' hl') m
          have hlive : ∀ q, live ⟨σ.heap, (σ.maps.set i (some (mergeMap m m'))).set j none⟩ q =
              if j = q then none else if i = q then some (mergeMap m m') else live σ q := by
            intro q
            rw [live_set (by simpa using hj), live_set hi]
          have hsrc : ∀ k r, AMap.get (mergeMap m m') k = some r →
              (AMap.get m' k = some r ∨ AMap.get m k = some r) := by
            intro k r h
            rw [hgm] at h
            cases hg : AMap.get m' k with
            | none => rw [hg] at h; exact Or.inr h
            | some r' => rw [hg] at h; simp at h; subst h; exact Or.inl rfl
          refine Or.inr ⟨_, rfl, ⟨?_, ?_, ?_⟩, ?_⟩
          · intro q mq hq
            rw [hlive] at hq
            split at hq
            · cases hq
            · split at hq
              · cases hq; exact wf_mergeMap m (hs.wf i m hl)
              · exact hs.wf q mq hq
          · intro q mq k r hq hk
            rw [hlive] at hq
            split at hq
            · cases hq
            · split at hq
              · cases hq
                rcases hsrc k r hk with h | h
                · exact hs.bound j m' k r hl' h
                · exact hs.bound i m k r hl h
              · exact hs.bound q mq k r hq hk
          · intro q q' mq mq' k k' r hq hq' hk hk'
            rw [hlive] at hq hq'
            by_cases hjq : j = q
            · rw [if_pos hjq] at hq; cases hq
            rw [if_neg hjq] at hq
            by_cases hjq' : j = q'
            · rw [if_pos hjq'] at hq'; cases hq'
            rw [if_neg hjq'] at hq'
            by_cases hiq : i = q
            · rw [if_pos hiq] at hq; cases hq
              by_cases hiq' : i = q'
              · rw [if_pos hiq'] at hq'; cases hq'
                refine ⟨hiq.symm.trans hiq', ?_⟩
                rcases hsrc k r hk with h | h <;> rcases hsrc k' r hk' with h' | h'
                · exact (hs.inj j j m' m' k k' r hl' hl' h h').2
                · exact absurd (hs.inj j i m' m k k' r hl' hl h h').1 (Ne.symm hij)
                · exact absurd (hs.inj i j m m' k k' r hl hl' h h').1 hij
                · exact (hs.inj i i m m k k' r hl hl h h').2
              · rw [if_neg hiq'] at hq'
                rcases hsrc k r hk with h | h
                · exact absurd (hs.inj j q' m' mq' k k' r hl' hq' h hk').1 hjq'
                · exact absurd (hs.inj i q' m mq' k k' r hl hq' h hk').1 hiq'
            · rw [if_neg hiq] at hq
              by_cases hiq' : i = q'
              · rw [if_pos hiq'] at hq'; cases hq'
                rcases hsrc k' r hk' with h | h
                · exact absurd (hs.inj j q m' mq k' k r hl' hq h hk).1 hjq
                · exact absurd (hs.inj i q m mq k' k r hl hq h hk).1 hiq
              · rw [if_neg hiq'] at hq'
                exact hs.inj q q' mq mq' k k' r hq hq' hk hk'
          · have e1 : abs ⟨σ.heap, σ.maps.set i (some (mergeMap m m'))⟩ =
                (abs σ).set i (some (meaning σ.heap (mergeMap m m'))) :=
              abs_set hi (fun _ _ _ _ => rfl)
            have e2 : abs ⟨σ.heap, (σ.maps.set i (some (mergeMap m m'))).set j none⟩ =
                (abs ⟨σ.heap, σ.maps.set i (some (mergeMap m m'))⟩).set j none :=
              abs_set (σ := ⟨σ.heap, σ.maps.set i (some (mergeMap m m'))⟩) (by simpa using hj)
                (fun _ _ _ _ => rfl)
            rw [e2, e1]
            congr 4
            funext k
            simp only [meaning, hgm]
            cases hg : AMap.get m' k with
            | none => simp
            | some r =>
              have := hs.bound j m' k r hl' hg
              simp [List.getElem?_eq_getElem this]

/-! ### C57 -/

/-- C57.  Every program over attribute maps — any number of maps, in any order adding, updating,
removing, clearing, resetting, cloning and merging maps that are given up — does exactly what the
same program does on plain maps from names to typed values, and panics exactly when that
program updates a name holding a value of another type or uses a map that is gone. -/
theorem attribute_maps_partial (ops : List Op) :
    (run init ops).map abs = srun [] ops ∧ ∀ σ, run init ops = some σ → Sep σ := by
  have : ∀ (σ : St), Sep σ → (run σ ops).map abs = srun (abs σ) ops ∧ ∀ σ', run σ ops = some σ' → Sep σ' := by
    induction ops with
    | nil => intro σ h; exact ⟨rfl, fun σ' h' => by cases h'; exact h⟩
    | cons o os ih =>
      intro σ h
      simp only [run, srun]
      rcases step_refines h o with ⟨h1, h2⟩ | ⟨σ', h1, h2, h3⟩
      · rw [h1, h2]; exact ⟨rfl, fun σ' h' => by cases h'⟩
      · rw [h1, h3]; exact ih σ' h2
  exact this init sep_init

theorem read_abs (σ : St) (i : Nat) (k : String) : read σ i k = (slive (abs σ) i).bind (fun f => f k) := by
  rw [slive_abs]
  unfold read meaning
  cases live σ i <;> rfl

/-- The map an operation may change. -/
def Op.target : Op → Option Nat
  | .new => none
  | .clone _ => none
  | .add i _ _ => some i
  | .updateAdd i _ _ => some i
  | .remove i _ => some i
  | .clear i => some i
  | .reset i => some i
  | .mergeDrop i _ => some i

/-- The map an operation gives up. -/
def Op.gone : Op → Option Nat
  | .mergeDrop _ j => some j
  | _ => none

theorem slive_set {s : Spec} {i j : Nat} {x : Option VMap} (h : i ≠ j) : slive (s.set i x) j = slive s j := by
  unfold slive
  rw [List.getElem?_set_ne h]

theorem slive_snoc {s : Spec} {j : Nat} {x : Option VMap} (h : j < s.length) : slive (s ++ [x]) j = slive s j := by
  unfold slive
  rw [List.getElem?_append_left h]

/-- A clone is independent: an operation on another map — the original, or a clone of it — leaves
what a map holds as it is. -/
theorem other_map_unchanged {σ σ' : St} (hs : Sep σ) {o : Op} (h : step σ o = some σ') {j : Nat}
    (hj : j < σ.maps.length) (ht : o.target ≠ some j) (hg : o.gone ≠ some j) (k : String) :
    read σ' j k = read σ j k := by
  rcases step_refines hs o with ⟨h1, _⟩ | ⟨σ2, h1, _, h3⟩
  · rw [h1] at h; cases h
  · rw [h1] at h; cases h
    rw [read_abs, read_abs]
    have hja : j < (abs σ).length := by simpa [abs] using hj
    suffices slive (abs σ') j = slive (abs σ) j by rw [this]
    generalize abs σ = s at *
    generalize abs σ' = s' at *
    cases o with
    | new => simp only [sstep, Option.some.injEq] at h3; subst h3; exact slive_snoc hja
    | clone i =>
      simp only [sstep] at h3
      split at h3
      · cases h3
      · simp only [Option.some.injEq] at h3; subst h3; exact slive_snoc hja
    | add i k v =>
      have hi : i ≠ j := fun h => ht (by simp [Op.target, h])
      simp only [sstep] at h3
      split at h3
      · cases h3
      · simp only [Option.some.injEq] at h3; subst h3; exact slive_set hi
    | updateAdd i k v =>
      have hi : i ≠ j := fun h => ht (by simp [Op.target, h])
      simp only [sstep] at h3
      split at h3
      · cases h3
      · split at h3
        · simp only [Option.some.injEq] at h3; subst h3; exact slive_set hi
        · split at h3
          · simp only [Option.some.injEq] at h3; subst h3; exact slive_set hi
          · cases h3
    | remove i k =>
      have hi : i ≠ j := fun h => ht (by simp [Op.target, h])
      simp only [sstep] at h3
      split at h3
      · cases h3
      · simp only [Option.some.injEq] at h3; subst h3; exact slive_set hi
    | clear i =>
      have hi : i ≠ j := fun h => ht (by simp [Op.target, h])
      simp only [sstep] at h3
      split at h3
      · cases h3
      · simp only [Option.some.injEq] at h3; subst h3; exact slive_set hi
    | reset i =>
      have hi : i ≠ j := fun h => ht (by simp [Op.target, h])
      simp only [sstep] at h3
      split at h3
      · cases h3
      · simp only [Option.some.injEq] at h3; subst h3; exact slive_set hi
    | mergeDrop i j2 =>
      have hi : i ≠ j := fun h => ht (by simp [Op.target, h])
      have hi2 : j2 ≠ j := fun h => hg (by simp [Op.gone, h])
      simp only [sstep] at h3
      split at h3
      · split at h3
        · simp only [Option.some.injEq] at h3; subst h3; rfl
        · simp only [Option.some.injEq] at h3; subst h3
          rw [slive_set hi2, slive_set hi]
      · cases h3

/-- A clone holds what the original holds. -/
theorem clone_same {σ σ' : St} (hs : Sep σ) {i : Nat} (h : step σ (.clone i) = some σ') (k : String) :
    read σ' σ.maps.length k = read σ i k := by
  rcases step_refines hs (.clone i) with ⟨h1, _⟩ | ⟨σ2, h1, _, h3⟩
  · rw [h1] at h; cases h
  · rw [h1] at h; cases h
    rw [read_abs, read_abs]
    have hlen : σ.maps.length = (abs σ).length := by simp [abs]
    rw [hlen]
    simp only [sstep] at h3
    cases hl : slive (abs σ) i with
    | none => rw [hl] at h3; cases h3
    | some f =>
      rw [hl] at h3
      simp only [Option.some.injEq] at h3
      rw [← h3]
      simp [slive]

/-- Reads return the last value written, in its type. -/
theorem read_after_add {σ σ' : St} (hs : Sep σ) {i : Nat} {k : String} {v : Val}
    (h : step σ (.add i k v) = some σ' ∨ step σ (.updateAdd i k v) = some σ') (k' : String) :
    read σ' i k' = if k' = k then some v else read σ i k' := by
  have key : ∀ f, slive (abs σ) i = some f → abs σ' = (abs σ).set i (some (upd f k (some v))) →
      read σ' i k' = if k' = k then some v else read σ i k' := by
    intro f hf h2
    rw [read_abs, read_abs, h2, hf]
    have hlt : i < (abs σ).length := by
      unfold slive at hf
      by_cases hi : i < (abs σ).length
      · exact hi
      · rw [List.getElem?_eq_none (by omega)] at hf; cases hf
    have : slive ((abs σ).set i (some (upd f k (some v)))) i = some (upd f k (some v)) := by
      simp [slive, hlt]
    rw [this]
    simp only [Option.bind_some, upd]
  rcases h with h | h
  · rcases step_refines hs (.add i k v) with ⟨h1, _⟩ | ⟨σ2, h1, _, h3⟩
    · rw [h1] at h; cases h
    · rw [h1] at h; cases h
      simp only [sstep] at h3
      cases hl : slive (abs σ) i with
      | none => rw [hl] at h3; cases h3
      | some f =>
        rw [hl] at h3
        simp only [Option.some.injEq] at h3
        exact key f hl h3.symm
  · rcases step_refines hs (.updateAdd i k v) with ⟨h1, _⟩ | ⟨σ2, h1, _, h3⟩
    · rw [h1] at h; cases h
    · rw [h1] at h; cases h
      simp only [sstep] at h3
      cases hl : slive (abs σ) i with
      | none => rw [hl] at h3; cases h3
      | some f =>
        rw [hl] at h3
        simp only at h3
        split at h3
        · simp only [Option.some.injEq] at h3; exact key f hl h3.symm
        · split at h3
          · simp only [Option.some.injEq] at h3; exact key f hl h3.symm
          · cases h3

/-- Keeping both maps after `Merge` makes them share values: updating a name in one changes what
the other holds. -/
theorem merge_shares {σ σ1 σ2 : St} (hs : Sep σ) {i j : Nat} (hij : i ≠ j) {k : String} {v w : Val}
    (hk : read σ j k = some w) (h1 : merge σ i j = some σ1) (hty : v.ty = w.ty)
    (h2 : step σ1 (.updateAdd i k v) = some σ2) : read σ2 j k = some v := by
  unfold merge at h1
  cases hl : live σ i with
  | none => rw [hl] at h1; cases h1
  | some m =>
    cases hl' : live σ j with
    | none => rw [hl, hl'] at h1; cases h1
    | some m' =>
      rw [hl, hl'] at h1
      simp only [Option.some.injEq] at h1
      have hi := live_lt hl
      simp only [read, hl', Option.bind_some] at hk
      cases hg : AMap.get m' k with
      | none => rw [hg] at hk; cases hk
      | some r =>
        rw [hg] at hk
        simp only [Option.bind_some] at hk
        have hgm : AMap.get (mergeMap m m') k = some r := by
          rw [get_mergeMap (hs.wf j m' hl'), hg]; rfl
        have hr := hs.bound j m' k r hl' hg
        subst h1
        have hli : live ⟨σ.heap, σ.maps.set i (some (mergeMap m m'))⟩ i = some (mergeMap m m') := by
          rw [live_set hi, if_pos rfl]
        simp only [step, hli, updateAddTo, hgm, hk, hty, ↓reduceIte, Option.some.injEq] at h2
        subst h2
        have hlj : live ⟨σ.heap.set r v, (σ.maps.set i (some (mergeMap m m'))).set i (some (mergeMap m m'))⟩ j = some m' := by
          rw [live_set (by simpa using hi), if_neg hij, live_set hi, if_neg hij]
          exact hl'
        simp only [read, hlj, Option.bind_some, hg]
        simp [hr]

/-- A program with two maps, a clone and a merge; and the sharing after a `Merge` that keeps both. -/
def program : List Op := [.new, .add 0 "a" (.int 1), .updateAdd 0 "b" (.str "x"), .clone 0,
  .updateAdd 0 "a" (.int 5), .new, .add 2 "c" (.bool true), .mergeDrop 1 2, .updateAdd 1 "c" (.bool false)]

example : (run init program).map (fun σ => (read σ 0 "a", read σ 1 "a", read σ 1 "c", read σ 0 "c")) =
    some (some (.int 5), some (.int 1), some (.bool false), none) := by decide

example : ((run init [.new, .new, .add 1 "a" (.int 1)]).bind (fun σ => (merge σ 0 1).bind (fun σ1 =>
    (step σ1 (.updateAdd 0 "a" (.int 7))).map (fun σ2 => (read σ 1 "a", read σ2 1 "a"))))) =
    some (some (.int 1), some (.int 7)) := by decide

end Kindling.Model.Attr
