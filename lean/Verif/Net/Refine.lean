import Verif.Net.Merge
/-
The exchange monitor refines, socket by socket, a machine that keeps plain event lists.
Helper file for C06, C07, C10, C11 (stated in Verif/Net/Props.lean).
-/
namespace Kindling.Net
open Kindling

/-- An exchange as the list of the events that belong to it. -/
structure Exch where
  conn : Option Evt := none
  reqs : List Evt := []
  resps : List Evt := []
deriving DecidableEq

def ofList (snaplen : Int) : List Evt → Option Events
  | [] => none
  | e :: es => some (mergeAll snaplen e es)

/-- The stored form of an exchange. -/
def Exch.pairs (snaplen : Int) (x : Exch) : Pairs :=
  { connects := x.conn.map (fun e => newEvents e snaplen)
    requests := ofList snaplen x.reqs
    responses := ofList snaplen x.resps
    maxLen := snaplen }

inductive SOut where
  | report (x : Exch)
  | continued (x : Exch) (putBack : Bool)

def SOut.exch : SOut → Exch
  | .report x => x
  | .continued x _ => x

def SOut.toOut (snaplen : Int) : SOut → Out
  | .report x => .report (x.pairs snaplen)
  | .continued x b => .continued (x.pairs snaplen) b

def Out.pairs : Out → Pairs
  | .report p => p
  | .continued p _ => p

/-- Outputs that concern the socket `k`. -/
def outsOf (k : Key) (out : List Out) : List Out := out.filter (fun o => decide (o.pairs.key = k))

section
variable (cfg : Cfg) (pa : Parsers)

def isCont (x : Exch) : Bool := !x.reqs.isEmpty && pa (x.pairs cfg.snaplen)

def sout (x : Exch) (back : Bool) : SOut :=
  if isCont cfg pa x then .continued x back else .report x

def scarry (old n : Exch) : Exch :=
  if isCont cfg pa old then { n with reqs := old.reqs ++ n.reqs } else n

/-- Socket machine: connect. -/
def sConnect (cur : Option Exch) (e : Evt) : Option Exch × List SOut :=
  match cur with
  | none => (some { conn := some e }, [])
  | some old =>
    match old.reqs, old.conn with
    | [], some c =>
      if (newEvents c cfg.snaplen).isTimeout e cfg.getConnectTimeout.toNat then (some { conn := some e }, [.report old])
      else (some { old with conn := some e }, [])
    | _, _ => (some (scarry cfg pa old { conn := some e }), [sout cfg pa old true])

/-- Socket machine: request. -/
def sRequest (cur : Option Exch) (e : Evt) : Option Exch × List SOut :=
  match cur with
  | none => (some { reqs := [e] }, [])
  | some old =>
    match old.reqs with
    | [] => if old.conn.isSome then (some { old with reqs := [e] }, []) else (some { reqs := [e] }, [])
    | r :: _ =>
      if !old.resps.isEmpty || e.sport != r.sport then
        (some (scarry cfg pa old { reqs := [e] }), [sout cfg pa old true])
      else (some { old with reqs := old.reqs ++ [e] }, [])

/-- Socket machine: response. -/
def sResponse (cur : Option Exch) (e : Evt) : Option Exch × List SOut :=
  match cur with
  | none => (none, [])
  | some old => if old.reqs.isEmpty then (some old, []) else (some { old with resps := old.resps ++ [e] }, [])

/-- Socket machine: timeout scan. -/
def sScan (cur : Option Exch) (now : Int) : Option Exch × List SOut :=
  match cur with
  | none => (none, [])
  | some p => if due cfg now (p.pairs cfg.snaplen) then (none, [sout cfg pa p false]) else (some p, [])

/-- The machine of one socket. -/
def sock (k : Key) (cur : Option Exch) : Op → Option Exch × List SOut
  | .connect e => if keyOf e = k then sConnect cfg pa cur e else (cur, [])
  | .request e => if keyOf e = k then sRequest cfg pa cur e else (cur, [])
  | .response e => if keyOf e = k then sResponse cur e else (cur, [])
  | .scan now => sScan cfg pa cur now

def sockRun (k : Key) : Option Exch → List Op → Option Exch × List SOut
  | cur, [] => (cur, [])
  | cur, op :: ops =>
    let r := sock cfg pa k cur op
    let r' := sockRun k r.1 ops
    (r'.1, r.2 ++ r'.2)

end

/-- Well-formed exchange of the socket `k`. -/
structure XOK (k : Key) (x : Exch) : Prop where
  nonempty : x.conn.isSome ∨ x.reqs ≠ []
  resp : x.resps ≠ [] → x.reqs ≠ []
  conn : ∀ e, x.conn = some e → keyOf e = k
  reqs : ∀ e ∈ x.reqs, keyOf e = k
  resps : ∀ e ∈ x.resps, keyOf e = k

structure Inv (cfg : Cfg) (st : Mon) (A : Key → Option Exch) : Prop where
  wf : AMap.WF st.map
  get : ∀ k, AMap.get st.map k = (A k).map (Exch.pairs cfg.snaplen)
  ok : ∀ k x, A k = some x → XOK k x
  size : st.size = st.map.length

theorem ofList_none {n : Int} {l : List Evt} : ofList n l = none ↔ l = [] := by cases l <;> simp [ofList]

theorem ofList_isSome {n : Int} {l : List Evt} : (ofList n l).isSome = !l.isEmpty := by cases l <;> simp [ofList]

theorem mergeSide_ofList (n : Int) (l : List Evt) (e : Evt) : some (mergeSide (ofList n l) n e) = ofList n (l ++ [e]) := by
  cases l with
  | nil => rfl
  | cons a r => simp only [ofList, mergeSide, List.cons_append]; rw [mergeAll_snoc]

theorem key_pairs {k : Key} {x : Exch} (h : XOK k x) (n : Int) : (x.pairs n).key = k := by
  simp only [Pairs.key, Exch.pairs]
  cases hc : x.conn with
  | some c => simp [newEvents, h.conn c hc]
  | none =>
    cases hr : x.reqs with
    | nil => have := h.nonempty; simp [hc, hr] at this
    | cons a r => simp [ofList, mergeAll_event, h.reqs a (by simp [hr])]

theorem toOut_key {k : Key} {x : Exch} (h : XOK k x) (cfg : Cfg) (pa : Parsers) (b : Bool) :
    ((sout cfg pa x b).toOut cfg.snaplen).pairs.key = k := by
  simp only [sout]; split <;> simp [SOut.toOut, Out.pairs, key_pairs h]

theorem putBack_mergeAll (n : Int) (e a : Evt) (l : List Evt) :
    Events.putBack (newEvents e n) (mergeAll n a l) = mergeAll n a (l ++ [e]) := by
  rw [mergeAll_snoc]
  have hm := mergeAll_maxLen n a l
  generalize mergeAll n a l = s at *
  subst hm
  simp [Events.putBack, newEvents]

/-- The stored form of the replacing exchange `n`, a fresh one of one event. -/
theorem scarry_pairs (cfg : Cfg) (pa : Parsers) (old n : Exch) (r : Events) (hr : ofList cfg.snaplen old.reqs = some r)
    (hn : n.reqs = [] ∨ ∃ e, n.reqs = [e]) :
    (scarry cfg pa old n).pairs cfg.snaplen =
      if pa (old.pairs cfg.snaplen) then (n.pairs cfg.snaplen).putRequestBack r else n.pairs cfg.snaplen := by
  have hne : old.reqs.isEmpty = false := by
    cases hh : old.reqs with
    | nil => simp [hh, ofList] at hr
    | cons a l => rfl
  simp only [scarry, isCont, hne, Bool.not_false, Bool.true_and]
  split
  · rename_i hp
    rcases hn with hn | ⟨e, hn⟩
    · simp only [Exch.pairs, Pairs.putRequestBack, hn, List.append_nil, hr]
      rfl
    · cases hh : old.reqs with
      | nil => simp [hh, ofList] at hr
      | cons a l =>
        simp only [hh, ofList, Option.some.injEq] at hr
        subst hr
        simp only [Exch.pairs, Pairs.putRequestBack, hn, List.cons_append, ofList]
        rw [show mergeAll cfg.snaplen e [] = newEvents e cfg.snaplen from rfl, putBack_mergeAll]
  · rfl

theorem set_set {κ α : Type} [DecidableEq κ] (m : AMap κ α) (k : κ) (v w : α) :
    AMap.set (AMap.set m k v) k w = AMap.set m k w := by
  induction m with
  | nil => simp [AMap.set]
  | cons p r ih =>
    obtain ⟨a, b⟩ := p
    simp only [AMap.set]
    split
    · rename_i h; simp [AMap.set, h]
    · rename_i h; simp [AMap.set, h, ih]

theorem distribute_new {cfg : Cfg} {pa : Parsers} {st : Mon} {k : Key} {x n : Exch} (hx : XOK k x) (hn : XOK k n)
    (h1 : n.reqs = [] ∨ ∃ e, n.reqs = [e]) :
    distribute pa st (x.pairs cfg.snaplen) (some (n.pairs cfg.snaplen)) =
      ({ st with map := AMap.set st.map k ((scarry cfg pa x n).pairs cfg.snaplen) },
        [(sout cfg pa x true).toOut cfg.snaplen]) := by
  have hkn := key_pairs hn cfg.snaplen
  cases hr : x.reqs with
  | nil =>
    have hc : x.conn.isSome := by have := hx.nonempty; simpa [hr] using this
    obtain ⟨c, hc⟩ := Option.isSome_iff_exists.1 hc
    have : isCont cfg pa x = false := by simp [isCont, hr]
    simp only [sout, scarry, this, SOut.toOut, Bool.false_eq_true, ↓reduceIte]
    have hreq : (x.pairs cfg.snaplen).requests = none := by simp [Exch.pairs, hr, ofList]
    have hcon : (x.pairs cfg.snaplen).connects = some (newEvents c cfg.snaplen) := by simp [Exch.pairs, hc]
    simp only [distribute, hreq, hcon, hkn]
  | cons a l =>
    have hro : ofList cfg.snaplen x.reqs = some (mergeAll cfg.snaplen a l) := by rw [hr]; rfl
    have hreq : (x.pairs cfg.snaplen).requests = some (mergeAll cfg.snaplen a l) := hro
    have hka : keyOf a = k := hx.reqs a (by simp [hr])
    have hcar := scarry_pairs cfg pa x n _ hro h1
    have hne : x.reqs.isEmpty = false := by simp [hr]
    simp only [distribute, hreq, mergeAll_event, hka, hkn, AMap.get_set_self]
    rw [hcar]
    have hd : ∀ (α : Type) (A B : α), (match (x.pairs cfg.snaplen).connects, some (mergeAll cfg.snaplen a l) with
        | none, none => A | _, _ => B) = B := by
      intro α A B; cases (x.pairs cfg.snaplen).connects <;> rfl
    refine Eq.trans (hd _ _ _) ?_
    simp only [sout, isCont, hne, Bool.not_false, Bool.true_and]
    by_cases hp : pa (x.pairs cfg.snaplen)
    · simp [hp, SOut.toOut, set_set]
    · simp [hp, SOut.toOut]

theorem distribute_del {cfg : Cfg} {pa : Parsers} {st : Mon} {k : Key} {x : Exch} (hx : XOK k x) :
    distribute pa st (x.pairs cfg.snaplen) none =
      ({ map := AMap.del st.map k, size := st.size - 1 }, [(sout cfg pa x false).toOut cfg.snaplen]) := by
  have hkx := key_pairs hx cfg.snaplen
  cases hr : x.reqs with
  | nil =>
    have hc : x.conn.isSome := by have := hx.nonempty; simpa [hr] using this
    obtain ⟨c, hc⟩ := Option.isSome_iff_exists.1 hc
    have : isCont cfg pa x = false := by simp [isCont, hr]
    simp only [sout, this, SOut.toOut, Bool.false_eq_true, ↓reduceIte]
    have hreq : (x.pairs cfg.snaplen).requests = none := by simp [Exch.pairs, hr, ofList]
    have hcon : (x.pairs cfg.snaplen).connects = some (newEvents c cfg.snaplen) := by simp [Exch.pairs, hc]
    simp only [distribute, hreq, hcon, hkx]
  | cons a l =>
    have hreq : (x.pairs cfg.snaplen).requests = some (mergeAll cfg.snaplen a l) := by
      simp [Exch.pairs, hr, ofList]
    have hka : keyOf a = k := hx.reqs a (by simp [hr])
    have hne : x.reqs.isEmpty = false := by simp [hr]
    simp only [distribute, hreq, mergeAll_event, hka, hkx, AMap.get_del_self]
    have hd : ∀ (α : Type) (A B : α), (match (x.pairs cfg.snaplen).connects, some (mergeAll cfg.snaplen a l) with
        | none, none => A | _, _ => B) = B := by
      intro α A B; cases (x.pairs cfg.snaplen).connects <;> rfl
    refine Eq.trans (hd _ _ _) ?_
    simp only [sout, isCont, hne, Bool.not_false, Bool.true_and]
    by_cases hp : pa (x.pairs cfg.snaplen)
    · simp [hp, SOut.toOut]
    · simp [hp, SOut.toOut]

/-! ### The machine keeps exchanges well-formed -/

theorem xok_conn (e : Evt) : XOK (keyOf e) { conn := some e } :=
  ⟨by simp, by simp, by simp, by simp, by simp⟩

theorem xok_req (e : Evt) : XOK (keyOf e) { reqs := [e] } :=
  ⟨by simp, by simp, by simp, by simp, by simp⟩

theorem xok_scarry {cfg : Cfg} {pa : Parsers} {k : Key} {old n : Exch} (ho : XOK k old) (hn : XOK k n) :
    XOK k (scarry cfg pa old n) := by
  simp only [scarry]
  split
  · refine ⟨?_, ?_, hn.conn, ?_, hn.resps⟩
    · rcases hn.nonempty with h | h
      · exact .inl h
      · exact .inr (by simp [h])
    · intro h; have := hn.resp h; simp [this]
    · intro e he
      rcases List.mem_append.1 he with he | he
      · exact ho.reqs e he
      · exact hn.reqs e he
  · exact hn

theorem xok_sock {cfg : Cfg} {pa : Parsers} {k : Key} {cur : Option Exch} (op : Op) (h : ∀ x, cur = some x → XOK k x) :
    ∀ x, (sock cfg pa k cur op).1 = some x → XOK k x := by
  intro x hx
  cases op with
  | connect e =>
    simp only [sock] at hx
    split at hx
    · rename_i hk; subst hk
      simp only [sConnect] at hx
      split at hx
      · simp only [Option.some.injEq] at hx; subst hx; exact xok_conn e
      · rename_i old
        have ho := h old rfl
        split at hx
        · rename_i c hr hc
          split at hx
          · simp only [Option.some.injEq] at hx; subst hx; exact xok_conn e
          · simp only [Option.some.injEq] at hx; subst hx
            exact ⟨.inl rfl, ho.resp, by simp, ho.reqs, ho.resps⟩
        · simp only [Option.some.injEq] at hx; subst hx
          exact xok_scarry ho (xok_conn e)
    · exact h x hx
  | request e =>
    simp only [sock] at hx
    split at hx
    · rename_i hk; subst hk
      simp only [sRequest] at hx
      split at hx
      · simp only [Option.some.injEq] at hx; subst hx; exact xok_req e
      · rename_i old
        have ho := h old rfl
        split at hx
        · split at hx
          · simp only [Option.some.injEq] at hx; subst hx
            exact ⟨.inr (by simp), by simp, ho.conn, by simp, ho.resps⟩
          · simp only [Option.some.injEq] at hx; subst hx; exact xok_req e
        · rename_i r l hr
          split at hx
          · simp only [Option.some.injEq] at hx; subst hx
            exact xok_scarry ho (xok_req e)
          · simp only [Option.some.injEq] at hx; subst hx
            refine ⟨.inr (by simp), by simp, ho.conn, ?_, ho.resps⟩
            intro e' he'
            rcases List.mem_append.1 he' with he' | he'
            · exact ho.reqs e' he'
            · simp only [List.mem_singleton] at he'; subst he'; rfl
    · exact h x hx
  | response e =>
    simp only [sock] at hx
    split at hx
    · rename_i hk; subst hk
      simp only [sResponse] at hx
      split at hx
      · simp at hx
      · rename_i old
        have ho := h old rfl
        split at hx
        · simp only [Option.some.injEq] at hx; subst hx; exact ho
        · rename_i hr
          simp only [Option.some.injEq] at hx; subst hx
          refine ⟨?_, ?_, ho.conn, ho.reqs, ?_⟩
          · exact .inr (by simpa using hr)
          · intro _; simpa using hr
          · intro e' he'
            rcases List.mem_append.1 he' with he' | he'
            · exact ho.resps e' he'
            · simp only [List.mem_singleton] at he'; subst he'; rfl
    · exact h x hx
  | scan now =>
    simp only [sock, sScan] at hx
    split at hx
    · simp at hx
    · split at hx
      · simp at hx
      · exact h x hx

/-! ### Refinement -/

theorem map_length_set {κ α : Type} [DecidableEq κ] (m : AMap κ α) (k : κ) (v : α) :
    (AMap.set m k v).length = m.length + (if AMap.get m k = none then 1 else 0) := by
  cases h : AMap.get m k with
  | none => simp [AMap.length_set_of_none h]
  | some w => simp [AMap.length_set_of_some h]

/-- A step that only touches socket `k0`. -/
theorem inv_touch {cfg : Cfg} {st : Mon} {A B : Key → Option Exch} (h : Inv cfg st A) (k0 : Key) (x : Exch)
    (hB : B k0 = some x) (hne : ∀ k, k ≠ k0 → B k = A k) (hx : XOK k0 x) {size : Int}
    (hs : size = st.size + (if A k0 = none then 1 else 0)) :
    Inv cfg { map := AMap.set st.map k0 (x.pairs cfg.snaplen), size := size } B := by
  refine ⟨h.wf.set _ _, ?_, ?_, ?_⟩
  · intro k
    rw [AMap.get_set]
    by_cases hk : k0 = k
    · subst hk; simp [hB]
    · simp only [hk, ↓reduceIte]; rw [hne k (fun e => hk e.symm)]; exact h.get k
  · intro k y hy
    by_cases hk : k = k0
    · subst hk; rw [hB] at hy; cases hy; exact hx
    · rw [hne k hk] at hy; exact h.ok k y hy
  · have hg := h.get k0
    simp only [map_length_set, hs, h.size]
    cases hA : A k0 with
    | none => simp [hA] at hg; simp [hg]
    | some y => simp [hA] at hg; simp [hg]

theorem outsOf_single {o : Out} {k0 k : Key} (h : o.pairs.key = k0) : outsOf k [o] = if k0 = k then [o] else [] := by
  simp only [outsOf, List.filter_cons, h, List.filter_nil]
  by_cases hk : k0 = k <;> simp [hk]

theorem outsOf_append (k : Key) (a b : List Out) : outsOf k (a ++ b) = outsOf k a ++ outsOf k b := by
  simp [outsOf]

theorem scan_refines {cfg : Cfg} {pa : Parsers} {now : Int} (ks : List Key) (hnd : ks.Nodup) {st : Mon} {A : Key → Option Exch}
    (h : Inv cfg st A) :
    Inv cfg (scanKeys cfg pa now st ks).1 (fun k => if k ∈ ks then (sScan cfg pa (A k) now).1 else A k) ∧
    ∀ k, outsOf k (scanKeys cfg pa now st ks).2 =
      if k ∈ ks then (sScan cfg pa (A k) now).2.map (SOut.toOut cfg.snaplen) else [] := by
  induction ks generalizing st A with
  | nil => simp only [scanKeys, List.not_mem_nil, ↓reduceIte]; exact ⟨h, fun k => rfl⟩
  | cons k0 ks ih =>
    rw [List.nodup_cons] at hnd
    have hg := h.get k0
    simp only [scanKeys]
    have skip : (sScan cfg pa (A k0) now).1 = A k0 → (sScan cfg pa (A k0) now).2 = [] →
        Inv cfg (scanKeys cfg pa now st ks).1 (fun k => if k ∈ k0 :: ks then (sScan cfg pa (A k) now).1 else A k) ∧
        ∀ k, outsOf k (scanKeys cfg pa now st ks).2 =
          if k ∈ k0 :: ks then (sScan cfg pa (A k) now).2.map (SOut.toOut cfg.snaplen) else [] := by
      intro e1 e2
      obtain ⟨i1, i2⟩ := ih hnd.2 h
      have hf : (fun k => if k ∈ k0 :: ks then (sScan cfg pa (A k) now).1 else A k) =
          (fun k => if k ∈ ks then (sScan cfg pa (A k) now).1 else A k) := by
        funext k
        by_cases hk : k = k0
        · subst hk; simp [hnd.1, e1]
        · simp [hk]
      rw [hf]
      refine ⟨i1, ?_⟩
      intro k
      rw [i2 k]
      by_cases hk : k = k0
      · subst hk; simp [hnd.1, e2]
      · simp [hk]
    cases hA : A k0 with
    | none =>
      simp only [hA, Option.map_none] at hg
      simp only [hg]
      exact skip (by simp [hA, sScan]) (by simp [hA, sScan])
    | some x =>
      simp only [hA, Option.map_some] at hg
      have hx := h.ok k0 x hA
      simp only [hg]
      by_cases hd : due cfg now (x.pairs cfg.snaplen)
      · simp only [hd, ↓reduceIte]
        rw [distribute_del hx]
        have hinv : Inv cfg { map := AMap.del st.map k0, size := st.size - 1 } (fun k => if k = k0 then none else A k) := by
          refine ⟨h.wf.del _, ?_, ?_, ?_⟩
          · intro k
            rw [AMap.get_del]
            by_cases hk : k0 = k
            · subst hk; simp
            · have hk' : k ≠ k0 := fun e => hk e.symm
              simp only [hk, hk', ↓reduceIte]; exact h.get k
          · intro k y hy
            by_cases hk : k = k0
            · simp [hk] at hy
            · simp only [hk, ↓reduceIte] at hy; exact h.ok k y hy
          · have := AMap.length_del_of_some h.wf hg
            simp only [h.size]; omega
        obtain ⟨i1, i2⟩ := ih hnd.2 hinv
        refine ⟨?_, ?_⟩
        · have hf : (fun k => if k ∈ k0 :: ks then (sScan cfg pa (A k) now).1 else A k) =
              (fun k => if k ∈ ks then (sScan cfg pa (if k = k0 then none else A k) now).1 else if k = k0 then none else A k) := by
            funext k
            by_cases hk : k = k0
            · subst hk; simp [hnd.1, hA, sScan, hd]
            · simp [hk]
          rw [hf]; exact i1
        · intro k
          rw [outsOf_append, i2 k, outsOf_single (toOut_key hx cfg pa false)]
          by_cases hk : k = k0
          · subst hk; simp [hnd.1, hA, sScan, hd]
          · have hk' : k0 ≠ k := fun e => hk e.symm
            simp [hk, hk']
      · simp only [hd, Bool.false_eq_true, ↓reduceIte]
        exact skip (by simp [hA, sScan, hd]) (by simp [hA, sScan, hd])

/-- Every step succeeds and acts on each socket like the machine of this socket. -/
theorem step_refines {cfg : Cfg} {pa : Parsers} {st : Mon} {A : Key → Option Exch} (op : Op) (h : Inv cfg st A) :
    ∃ st' out, step cfg pa st op = some (st', out) ∧ Inv cfg st' (fun k => (sock cfg pa k (A k) op).1) ∧
      ∀ k, outsOf k out = (sock cfg pa k (A k) op).2.map (SOut.toOut cfg.snaplen) := by
  have hok : ∀ k x, (sock cfg pa k (A k) op).1 = some x → XOK k x := fun k => xok_sock op (h.ok k)
  -- frame: an operation on socket `k0` that stores `x` there and outputs `os`
  have touch : ∀ (k0 : Key) (x : Exch) (os : List SOut) (size : Int),
      (∀ k, k ≠ k0 → sock cfg pa k (A k) op = (A k, [])) → sock cfg pa k0 (A k0) op = (some x, os) →
      (∀ o ∈ os, (o.toOut cfg.snaplen).pairs.key = k0) →
      size = st.size + (if A k0 = none then 1 else 0) →
      Inv cfg { map := AMap.set st.map k0 (x.pairs cfg.snaplen), size := size } (fun k => (sock cfg pa k (A k) op).1) ∧
      ∀ k, outsOf k (os.map (SOut.toOut cfg.snaplen)) = (sock cfg pa k (A k) op).2.map (SOut.toOut cfg.snaplen) := by
    intro k0 x os size hne h0 hos hs
    refine ⟨inv_touch h k0 x (by rw [h0]) (fun k hk => by rw [hne k hk]) (hok k0 x (by rw [h0])) hs, ?_⟩
    intro k
    by_cases hk : k = k0
    · subst hk
      rw [h0]
      simp only [outsOf]
      rw [List.filter_eq_self]
      intro o ho
      obtain ⟨s, hsm, rfl⟩ := List.mem_map.1 ho
      simp [hos s hsm]
    · rw [hne k hk]
      simp only [outsOf, List.map_nil]
      rw [List.filter_eq_nil_iff]
      intro o ho
      obtain ⟨s, hsm, rfl⟩ := List.mem_map.1 ho
      have := hos s hsm
      simp only [this, decide_eq_true_eq]
      exact fun e => hk e.symm
  cases op with
  | connect e =>
    have hne : ∀ k, k ≠ keyOf e → sock cfg pa k (A k) (.connect e) = (A k, []) := by
      intro k hk; have hk' : keyOf e ≠ k := fun e' => hk e'.symm
      simp [sock, hk']
    have hg := h.get (keyOf e)
    have hkey : Pairs.key { connects := some (newEvents e cfg.snaplen), maxLen := cfg.snaplen } = keyOf e := rfl
    simp only [step, analyseConnect, hkey]
    cases hA : A (keyOf e) with
    | none =>
      simp only [hA, Option.map_none] at hg
      simp only [hg]
      refine ⟨_, _, rfl, ?_⟩
      exact touch (keyOf e) { conn := some e } [] _ hne (by simp [sock, hA, sConnect]) (by simp) (by simp [hA])
    | some x =>
      simp only [hA, Option.map_some] at hg
      have hx := h.ok _ x hA
      simp only [hg]
      have hdist : ∃ st' out, some (distribute pa st (x.pairs cfg.snaplen)
            (some { connects := some (newEvents e cfg.snaplen), maxLen := cfg.snaplen })) = some (st', out) ∧
          (sock cfg pa (keyOf e) (A (keyOf e)) (.connect e) = (some (scarry cfg pa x { conn := some e }), [sout cfg pa x true]) →
          Inv cfg st' (fun k => (sock cfg pa k (A k) (.connect e)).1) ∧
          ∀ k, outsOf k out = (sock cfg pa k (A k) (.connect e)).2.map (SOut.toOut cfg.snaplen)) := by
        refine ⟨_, _, congrArg some (distribute_new (n := { conn := some e }) hx (xok_conn e) (.inl rfl)), ?_⟩
        intro hs
        exact touch (keyOf e) _ _ _ hne hs (by simp [toOut_key hx]) (by simp [hA])
      obtain ⟨st', out, hd, himp⟩ := hdist
      cases hr : x.reqs with
      | cons a l =>
        have hreq : (x.pairs cfg.snaplen).requests = some (mergeAll cfg.snaplen a l) := by simp [Exch.pairs, hr, ofList]
        simp only [hreq, hd]
        exact ⟨st', out, rfl, himp (by simp [sock, hA, sConnect, hr])⟩
      | nil =>
        have hc : x.conn.isSome := by have := hx.nonempty; simpa [hr] using this
        obtain ⟨c, hc⟩ := Option.isSome_iff_exists.1 hc
        have hreq : (x.pairs cfg.snaplen).requests = none := by simp [Exch.pairs, hr, ofList]
        have hcon : (x.pairs cfg.snaplen).connects = some (newEvents c cfg.snaplen) := by simp [Exch.pairs, hc]
        simp only [hreq, hcon]
        by_cases ht : (newEvents c cfg.snaplen).isTimeout e cfg.getConnectTimeout.toNat
        · simp only [ht, ↓reduceIte, hd]
          refine ⟨st', out, rfl, himp ?_⟩
          have : isCont cfg pa x = false := by simp [isCont, hr]
          simp [sock, hA, sConnect, hr, hc, ht, scarry, sout, this]
        · simp only [ht, Bool.false_eq_true, ↓reduceIte]
          have hm : (x.pairs cfg.snaplen).mergeConnect e =
              some (Exch.pairs cfg.snaplen { x with conn := some e }) := by
            simp only [Pairs.mergeConnect, hreq]
            simp [Exch.pairs, hr, ofList]
          simp only [hm]
          refine ⟨_, _, rfl, ?_⟩
          exact touch (keyOf e) { x with conn := some e } [] _ hne (by simp [sock, hA, sConnect, hr, hc, ht]) (by simp) (by simp [hA])
  | request e =>
    have hne : ∀ k, k ≠ keyOf e → sock cfg pa k (A k) (.request e) = (A k, []) := by
      intro k hk; have hk' : keyOf e ≠ k := fun e' => hk e'.symm
      simp [sock, hk']
    have hg := h.get (keyOf e)
    have hkey : Pairs.key { requests := some (newEvents e cfg.snaplen), maxLen := cfg.snaplen } = keyOf e := rfl
    simp only [step, analyseRequest, hkey, Option.some.injEq]
    cases hA : A (keyOf e) with
    | none =>
      simp only [hA, Option.map_none] at hg
      simp only [hg]
      refine ⟨_, _, rfl, ?_⟩
      exact touch (keyOf e) { reqs := [e] } [] _ hne (by simp [sock, hA, sRequest]) (by simp) (by simp [hA])
    | some x =>
      simp only [hA, Option.map_some] at hg
      have hx := h.ok _ x hA
      simp only [hg]
      have hm : (x.pairs cfg.snaplen).mergeRequest e = Exch.pairs cfg.snaplen { x with reqs := x.reqs ++ [e] } := by
        simp only [Pairs.mergeRequest, Exch.pairs, mergeSide_ofList]
      cases hr : x.reqs with
      | nil =>
        have hc : x.conn.isSome := by have := hx.nonempty; simpa [hr] using this
        obtain ⟨c, hc⟩ := Option.isSome_iff_exists.1 hc
        have hreq : (x.pairs cfg.snaplen).requests = none := by simp [Exch.pairs, hr, ofList]
        have hcon : (x.pairs cfg.snaplen).connects = some (newEvents c cfg.snaplen) := by simp [Exch.pairs, hc]
        simp only [hreq, hcon, hm]
        refine ⟨_, _, rfl, ?_⟩
        exact touch (keyOf e) { x with reqs := x.reqs ++ [e] } [] _ hne
          (by simp [sock, hA, sRequest, hr, hc]) (by simp) (by simp [hA])
      | cons a l =>
        have hreq : (x.pairs cfg.snaplen).requests = some (mergeAll cfg.snaplen a l) := by simp [Exch.pairs, hr, ofList]
        simp only [hreq]
        have hcond : ((x.pairs cfg.snaplen).responses.isSome || (mergeAll cfg.snaplen a l).sportChanged e) =
            (!x.resps.isEmpty || e.sport != a.sport) := by
          simp only [Exch.pairs, ofList_isSome, Events.sportChanged, mergeAll_event]
        by_cases hb : (!x.resps.isEmpty || e.sport != a.sport) = true
        · rw [if_pos (by rw [hcond]; exact hb)]
          have hdn := distribute_new (cfg := cfg) (pa := pa) (st := st) (n := { reqs := [e] }) hx (xok_req e) (.inr ⟨e, rfl⟩)
          refine ⟨_, _, hdn, ?_⟩
          refine touch (keyOf e) _ [sout cfg pa x true] _ hne ?_ (by simp [toOut_key hx]) (by simp [hA])
          simp only [sock, hA, sRequest, hr, ↓reduceIte]
          rw [if_pos hb]
        · rw [if_neg (by rw [hcond]; exact hb), hm]
          refine ⟨_, _, rfl, ?_⟩
          refine touch (keyOf e) { x with reqs := x.reqs ++ [e] } [] _ hne ?_ (by simp) (by simp [hA])
          simp only [sock, hA, sRequest, hr, ↓reduceIte]
          rw [if_neg hb]
  | response e =>
    have hne : ∀ k, k ≠ keyOf e → sock cfg pa k (A k) (.response e) = (A k, []) := by
      intro k hk; have hk' : keyOf e ≠ k := fun e' => hk e'.symm
      simp [sock, hk']
    have hg := h.get (keyOf e)
    simp only [step, analyseResponse, Option.some.injEq]
    have same : sock cfg pa (keyOf e) (A (keyOf e)) (.response e) = (A (keyOf e), []) →
        Inv cfg st (fun k => (sock cfg pa k (A k) (.response e)).1) ∧
        ∀ k, outsOf k [] = (sock cfg pa k (A k) (.response e)).2.map (SOut.toOut cfg.snaplen) := by
      intro hs
      have hall : ∀ k, sock cfg pa k (A k) (.response e) = (A k, []) := by
        intro k
        by_cases hk : k = keyOf e
        · subst hk; exact hs
        · exact hne k hk
      simp only [hall]
      exact ⟨h, fun k => rfl⟩
    cases hA : A (keyOf e) with
    | none =>
      simp only [hA, Option.map_none] at hg
      simp only [hg]
      exact ⟨_, _, rfl, same (by simp [sock, hA, sResponse])⟩
    | some x =>
      simp only [hA, Option.map_some] at hg
      simp only [hg]
      cases hr : x.reqs with
      | nil =>
        have hreq : (x.pairs cfg.snaplen).requests = none := by simp [Exch.pairs, hr, ofList]
        simp only [hreq]
        exact ⟨_, _, rfl, same (by simp [sock, hA, sResponse, hr])⟩
      | cons a l =>
        have hreq : (x.pairs cfg.snaplen).requests = some (mergeAll cfg.snaplen a l) := by simp [Exch.pairs, hr, ofList]
        have hm : (x.pairs cfg.snaplen).mergeResponse e = Exch.pairs cfg.snaplen { x with resps := x.resps ++ [e] } := by
          simp only [Pairs.mergeResponse, Exch.pairs, mergeSide_ofList]
        simp only [hreq, hm]
        refine ⟨_, _, rfl, ?_⟩
        exact touch (keyOf e) { x with resps := x.resps ++ [e] } [] _ hne
          (by simp [sock, hA, sResponse, hr]) (by simp) (by simp [hA])
  | scan now =>
    simp only [step, Option.some.injEq]
    obtain ⟨i1, i2⟩ := scan_refines (cfg := cfg) (pa := pa) (now := now) (AMap.keys st.map) h.wf h
    have hnot : ∀ k, k ∉ AMap.keys st.map → A k = none := by
      intro k hk
      have := (AMap.get_eq_none_iff st.map k).2 hk
      rw [h.get k] at this
      simpa using this
    refine ⟨_, _, rfl, ?_, ?_⟩
    · have hf : (fun k => (sock cfg pa k (A k) (.scan now)).1) =
          (fun k => if k ∈ AMap.keys st.map then (sScan cfg pa (A k) now).1 else A k) := by
        funext k
        by_cases hk : k ∈ AMap.keys st.map
        · simp [hk, sock]
        · simp [hk, sock, hnot k hk, sScan]
      rw [hf]; exact i1
    · intro k
      refine (i2 k).trans ?_
      by_cases hk : k ∈ AMap.keys st.map
      · simp [hk, sock]
      · simp [hk, sock, hnot k hk, sScan]

theorem run_refines {cfg : Cfg} {pa : Parsers} (ops : List Op) {st : Mon} {A : Key → Option Exch} (h : Inv cfg st A) :
    ∃ st' out, run cfg pa st ops = some (st', out) ∧ Inv cfg st' (fun k => (sockRun cfg pa k (A k) ops).1) ∧
      ∀ k, outsOf k out = (sockRun cfg pa k (A k) ops).2.map (SOut.toOut cfg.snaplen) := by
  induction ops generalizing st A with
  | nil => exact ⟨st, [], rfl, h, fun k => rfl⟩
  | cons op r ih =>
    obtain ⟨st1, o1, h1, i1, p1⟩ := step_refines (pa := pa) op h
    obtain ⟨st2, o2, h2, i2, p2⟩ := ih i1
    refine ⟨st2, o1 ++ o2, by simp [run, h1, h2], i2, ?_⟩
    intro k
    rw [outsOf_append, p1 k, p2 k]
    simp [sockRun]

theorem inv_init (cfg : Cfg) : Inv cfg {} (fun _ => none) :=
  ⟨AMap.wf_nil, fun _ => rfl, by simp, rfl⟩

end Kindling.Net
