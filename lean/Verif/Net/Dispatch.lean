import Verif.Net.Cache
/-
Which parser reports an exchange: `parseProtocols`, network_analyzer.go:494-552, over the parser
cache of `Cache.lean` and the per-port counters of protocol_parser.go:484-498.

A parser is a value of an arbitrary type; what the model keeps of a request is its port and which
parsers accept it (`parseProtocol` returns something other than nil: the request and, when there
is one, the response parse).  Simplified: one exchange at a time, as in one goroutine of the
analyzer.
-/
namespace Kindling.Net.Dispatch
open Kindling.Net.Cache
variable {P : Type} [DecidableEq P]

/-- `CACHE_ADD_THRESHOLD`, `CACHE_RESET_THRESHOLD` (network_analyzer.go:32-33). -/
def addThreshold : Nat := 50
def resetThreshold : Nat := 5000

/-- Configuration of the analyzer: `staticPortMap`, `protocolMap`, the parsers tried in order
without the generic one (`parsers`, network_analyzer.go:141-155, ends with it) and the generic
parser. -/
structure Cfg (P : Type) where
  staticPorts : AMap Nat String
  protocolMap : AMap String P
  named : List P
  generic : P

/-- Parser cache and counters (`portCounter` of each parser; a missing entry is 0). -/
structure DSt (P : Type) where
  cache : St P
  count : P → Nat → Nat

/-- What `parseProtocols` hands on: the connect failure record, a parser's record, or a record with
only a protocol name. -/
inductive Out (P : Type) where
  | connectFail
  | parsed (p : P)
  | nameOnly (protocol : String)
deriving DecidableEq, Repr

/-- One call of `parseProtocols`: the server port, whether there are requests, and which parsers
accept the exchange. -/
structure Call (P : Type) where
  port : Nat
  hasRequests : Bool
  accepts : P → Bool

/-- `AddPortCount` (protocol_parser.go:484-493): a 32-bit counter. -/
def addPortCount (count : P → Nat → Nat) (p : P) (port : Nat) : Nat × (P → Nat → Nat) :=
  let c := (count p port + 1) % 2 ^ 32
  (c, fun q r => if q = p ∧ r = port then c else count q r)

/-- `ResetPort` (protocol_parser.go:495-498). -/
def resetPort (count : P → Nat → Nat) (p : P) (port : Nat) : P → Nat → Nat :=
  fun q r => if q = p ∧ r = port then 0 else count q r

/-- The cached parsers (network_analyzer.go:520-537). -/
def stepCached (g : P) (σ : DSt P) (c : Call P) (p : P) : Option (Out P × DSt P) :=
  if p = g then
    let r := addPortCount σ.count p c.port
    if r.1 = resetThreshold then
      match remove σ.cache c.port p with
      | none => none
      | some cache' => some (.parsed p, ⟨cache', resetPort r.2 p c.port⟩)
    else some (.parsed p, ⟨σ.cache, r.2⟩)
  else some (.parsed p, σ)

/-- All parsers in order (network_analyzer.go:539-551). -/
def stepAll (grow : Nat → Nat) (cfg : Cfg P) (σ : DSt P) (c : Call P) : Out P × DSt P :=
  match (cfg.named ++ [cfg.generic]).find? c.accepts with
  | none => (.nameOnly "NOSUPPORT", σ)
  | some p =>
    let r := addPortCount σ.count p c.port
    if r.1 = addThreshold then (.parsed p, ⟨add grow cfg.generic σ.cache c.port p, r.2⟩)
    else (.parsed p, ⟨σ.cache, r.2⟩)

/-- `parseProtocols` (network_analyzer.go:494-552). -/
def parseProtocols (grow : Nat → Nat) (cfg : Cfg P) (σ : DSt P) (c : Call P) : Option (Out P × DSt P) :=
  match AMap.get cfg.staticPorts c.port with
  | some proto =>
    if c.hasRequests then
      match AMap.get cfg.protocolMap proto with
      | some p => if c.accepts p then some (.parsed p, σ) else some (.nameOnly proto, σ)
      | none => some (.nameOnly proto, σ)
    else some (.connectFail, σ)
  | none =>
    if c.hasRequests then
      match (listOf σ.cache c.port).find? c.accepts with
      | some p => stepCached cfg.generic σ c p
      | none => some (stepAll grow cfg σ c)
    else some (.connectFail, σ)

def initial : DSt P := ⟨init, fun _ _ => 0⟩

/-- A sequence of calls; the log pairs each call with what was handed on. -/
def runCalls (grow : Nat → Nat) (cfg : Cfg P) : DSt P → List (Call P) → Option (List (Call P × Out P) × DSt P)
  | σ, [] => some ([], σ)
  | σ, c :: cs => match parseProtocols grow cfg σ c with
    | none => none
    | some (o, σ') => match runCalls grow cfg σ' cs with
      | none => none
      | some (log, σ'') => some ((c, o) :: log, σ'')

/-! ### Specification, over the log alone -/

/-- The exchanges on this port, not fixed by configuration, that this parser reported. -/
def reported (cfg : Cfg P) (log : List (Call P × Out P)) (p : P) (port : Nat) : Nat :=
  (log.filter (fun e => decide (e.1.port = port ∧ e.2 = .parsed p ∧
    AMap.get cfg.staticPorts port = none))).length

/-- A parser is remembered for a port once it reported fifty exchanges there; the generic one is
forgotten at each five thousandth. -/
def remembered (cfg : Cfg P) (log : List (Call P × Out P)) (p : P) (port : Nat) : Prop :=
  if p = cfg.generic then addThreshold ≤ reported cfg log p port % resetThreshold
  else addThreshold ≤ reported cfg log p port

/-- What holds between the log so far and the state. -/
structure Match (cfg : Cfg P) (log : List (Call P × Out P)) (σ : DSt P) : Prop where
  inv : Inv cfg.generic σ.cache
  mem : ∀ p port, p ∈ listOf σ.cache port ↔ remembered cfg log p port
  countG : ∀ port, σ.count cfg.generic port = reported cfg log cfg.generic port % resetThreshold
  countN : ∀ p port, p ≠ cfg.generic → σ.count p port = min addThreshold (reported cfg log p port)

theorem reported_snoc (cfg : Cfg P) (log : List (Call P × Out P)) (c : Call P) (o : Out P) (p : P) (port : Nat) :
    reported cfg (log ++ [(c, o)]) p port = reported cfg log p port +
      (if c.port = port ∧ o = .parsed p ∧ AMap.get cfg.staticPorts port = none then 1 else 0) := by
  unfold reported
  rw [List.filter_append, List.length_append]
  congr 1
  simp only [List.filter_cons, List.filter_nil]
  by_cases h : c.port = port ∧ o = .parsed p ∧ AMap.get cfg.staticPorts port = none
  · simp [h]
  · rw [if_neg h, if_neg (by simpa using h)]; rfl

/-- A call that is not counted leaves everything related. -/
theorem match_uncounted {cfg : Cfg P} {log : List (Call P × Out P)} {σ : DSt P} (h : Match cfg log σ)
    (c : Call P) (o : Out P)
    (hn : ∀ p, ¬ (o = .parsed p ∧ AMap.get cfg.staticPorts c.port = none)) :
    Match cfg (log ++ [(c, o)]) σ := by
  have hr : ∀ p port, reported cfg (log ++ [(c, o)]) p port = reported cfg log p port := by
    intro p port
    rw [reported_snoc, if_neg]
    · rfl
    · rintro ⟨rfl, h1, h2⟩; exact hn p ⟨h1, h2⟩
  exact ⟨h.inv, fun p port => by rw [h.mem]; simp [remembered, hr], fun port => by rw [h.countG, hr],
    fun p port hp => by rw [h.countN p port hp, hr]⟩

theorem match_initial (cfg : Cfg P) : Match cfg [] (initial : DSt P) :=
  ⟨inv_init _, fun p port => by simp [listOf, initial, init, remembered, reported, addThreshold],
    fun port => by simp [initial, reported], fun p port _ => by simp [initial, reported]⟩

theorem reported_other {cfg : Cfg P} {log : List (Call P × Out P)} {c : Call P} {p q : P} {port : Nat}
    (h : ¬ (q = p ∧ port = c.port)) :
    reported cfg (log ++ [(c, .parsed p)]) q port = reported cfg log q port := by
  rw [reported_snoc, if_neg]
  · rfl
  · rintro ⟨h1, h2, _⟩
    cases h2
    exact h ⟨rfl, h1.symm⟩

theorem reported_self {cfg : Cfg P} {log : List (Call P × Out P)} {c : Call P} {p : P}
    (hs : AMap.get cfg.staticPorts c.port = none) :
    reported cfg (log ++ [(c, .parsed p)]) p c.port = reported cfg log p c.port + 1 := by
  rw [reported_snoc, if_pos ⟨rfl, rfl, hs⟩]

theorem remembered_other {cfg : Cfg P} {log : List (Call P × Out P)} {c : Call P} {p q : P} {port : Nat}
    (h : ¬ (q = p ∧ port = c.port)) :
    remembered cfg (log ++ [(c, .parsed p)]) q port ↔ remembered cfg log q port := by
  simp only [remembered, reported_other h]

/-- One call keeps log and state related, and never fails. -/
theorem step_match (grow : Nat → Nat) (cfg : Cfg P) {log : List (Call P × Out P)} {σ : DSt P}
    (h : Match cfg log σ) (c : Call P) :
    ∃ o σ', parseProtocols grow cfg σ c = some (o, σ') ∧ Match cfg (log ++ [(c, o)]) σ' := by
  unfold parseProtocols
  cases hst : AMap.get cfg.staticPorts c.port with
  | some proto =>
    have hn : ∀ (o : Out P) p, ¬ (o = .parsed p ∧ AMap.get cfg.staticPorts c.port = none) := by
      rintro o p ⟨_, h⟩; rw [hst] at h; cases h
    simp only
    split
    · split
      · split
        · exact ⟨_, _, rfl, match_uncounted h c _ (hn _)⟩
        · exact ⟨_, _, rfl, match_uncounted h c _ (hn _)⟩
      · exact ⟨_, _, rfl, match_uncounted h c _ (hn _)⟩
    · exact ⟨_, _, rfl, match_uncounted h c _ (hn _)⟩
  | none =>
    simp only
    by_cases hreq : c.hasRequests = true
    case neg =>
      rw [if_neg hreq]
      exact ⟨_, _, rfl, match_uncounted h c _ (by rintro p ⟨h, _⟩; cases h)⟩
    case pos =>
      rw [if_pos hreq]
      cases hf : (listOf σ.cache c.port).find? c.accepts with
      | some p =>
        have hmem : p ∈ listOf σ.cache c.port := List.mem_of_find?_eq_some hf
        have hrem := (h.mem p c.port).1 hmem
        simp only
        unfold stepCached
        by_cases hpg : p = cfg.generic
        · subst hpg
          have hcg := h.countG c.port
          have hlt : reported cfg log cfg.generic c.port % resetThreshold < 5000 :=
            Nat.mod_lt _ (by decide)
          have hc : (σ.count cfg.generic c.port + 1) % 2 ^ 32 = σ.count cfg.generic c.port + 1 := by
            apply Nat.mod_eq_of_lt; omega
          have hge : 50 ≤ reported cfg log cfg.generic c.port % resetThreshold := by
            simpa [remembered, addThreshold] using hrem
          simp only [↓reduceIte, addPortCount, hc]
          by_cases hreset : σ.count cfg.generic c.port + 1 = resetThreshold
          · rw [if_pos hreset]
            obtain ⟨cache', hrm, hinv', hlist⟩ := remove_refines h.inv c.port cfg.generic
            rw [hrm]
            have hmod : (reported cfg log cfg.generic c.port + 1) % resetThreshold = 0 := by
              rw [hcg] at hreset
              simp only [resetThreshold] at hreset ⊢; omega
            refine ⟨_, _, rfl, hinv', ?_, ?_, ?_⟩
            · intro q port
              simp only [hlist]
              by_cases hq : q = cfg.generic ∧ port = c.port
              · obtain ⟨rfl, rfl⟩ := hq
                simp [specRemove, remembered, reported_self hst, hmod, addThreshold]
              · rw [remembered_other hq]
                by_cases hport : port = c.port
                · subst hport
                  have hq' : q ≠ cfg.generic := fun hh => hq ⟨hh, rfl⟩
                  simp [specRemove, hq', h.mem]
                · rw [if_neg hport, h.mem]
            · intro port
              simp only [resetPort, true_and]
              by_cases hport : port = c.port
              · subst hport; simp [reported_self hst, hmod]
              · simp only [hport, ↓reduceIte]
                rw [reported_other (fun hh => hport hh.2)]; exact h.countG port
            · intro q port hq
              simp only [resetPort, hq, false_and, ↓reduceIte]
              rw [reported_other (fun hh => hq hh.1)]; exact h.countN q port hq
          · rw [if_neg hreset]
            have hmod : (reported cfg log cfg.generic c.port + 1) % resetThreshold =
                reported cfg log cfg.generic c.port % resetThreshold + 1 := by
              rw [hcg] at hreset
              simp only [resetThreshold] at hreset ⊢; omega
            refine ⟨_, _, rfl, h.inv, ?_, ?_, ?_⟩
            · intro q port
              by_cases hq : q = cfg.generic ∧ port = c.port
              · obtain ⟨rfl, rfl⟩ := hq
                simp only [hmem, true_iff, remembered, ↓reduceIte, reported_self hst, hmod, addThreshold]
                omega
              · rw [remembered_other hq]; exact h.mem q port
            · intro port
              simp only [true_and]
              by_cases hport : port = c.port
              · subst hport; simp [reported_self hst, hmod, hcg]
              · simp only [hport, ↓reduceIte]
                rw [reported_other (fun hh => hport hh.2)]; exact h.countG port
            · intro q port hq
              simp only [hq, false_and, ↓reduceIte]
              rw [reported_other (fun hh => hq hh.1)]; exact h.countN q port hq
        · simp only [hpg, ↓reduceIte]
          have hge : 50 ≤ reported cfg log p c.port := by
            simpa [remembered, addThreshold, hpg] using hrem
          refine ⟨_, _, rfl, h.inv, ?_, ?_, ?_⟩
          · intro q port
            by_cases hq : q = p ∧ port = c.port
            · obtain ⟨rfl, rfl⟩ := hq
              simp only [hmem, true_iff, remembered, hpg, ↓reduceIte, reported_self hst, addThreshold]
              omega
            · rw [remembered_other hq]; exact h.mem q port
          · intro port
            rw [reported_other (fun hh => hpg hh.1.symm)]; exact h.countG port
          · intro q port hq
            by_cases hqp : q = p ∧ port = c.port
            · obtain ⟨rfl, rfl⟩ := hqp
              rw [reported_self hst, h.countN _ _ hq]
              simp only [addThreshold]; omega
            · rw [reported_other hqp]; exact h.countN q port hq
      | none =>
        simp only
        unfold stepAll
        cases hf2 : (cfg.named ++ [cfg.generic]).find? c.accepts with
        | none => exact ⟨_, _, rfl, match_uncounted h c _ (by rintro p ⟨h, _⟩; cases h)⟩
        | some p =>
          have hacc : c.accepts p = true := List.find?_some hf2
          have hnot : p ∉ listOf σ.cache c.port := by
            intro hm
            exact absurd hacc (by simpa using List.find?_eq_none.1 hf p hm)
          have hnr : ¬ remembered cfg log p c.port := fun hh => hnot ((h.mem p c.port).2 hh)
          -- the counter before the call, below the threshold
          have hcnt : σ.count p c.port < 50 ∧
              (p ≠ cfg.generic → reported cfg log p c.port = σ.count p c.port) := by
            by_cases hpg : p = cfg.generic
            · subst hpg
              simp only [remembered, ↓reduceIte, addThreshold, Nat.not_le] at hnr
              exact ⟨by rw [h.countG]; exact hnr, fun hh => absurd rfl hh⟩
            · simp only [remembered, hpg, ↓reduceIte, addThreshold, Nat.not_le] at hnr
              have := h.countN p c.port hpg
              simp only [addThreshold] at this
              exact ⟨by omega, fun _ => by omega⟩
          have hc : (σ.count p c.port + 1) % 2 ^ 32 = σ.count p c.port + 1 := by
            apply Nat.mod_eq_of_lt; omega
          have hmodG : p = cfg.generic → (reported cfg log p c.port + 1) % resetThreshold = σ.count p c.port + 1 := by
            rintro rfl
            have := h.countG c.port
            have h1 := hcnt.1
            simp only [resetThreshold] at this ⊢
            omega
          have hcountG : ∀ port, (if cfg.generic = p ∧ port = c.port then σ.count p c.port + 1 else σ.count cfg.generic port)
              = reported cfg (log ++ [(c, .parsed p)]) cfg.generic port % resetThreshold := by
            intro port
            by_cases hq : cfg.generic = p ∧ port = c.port
            · obtain ⟨rfl, rfl⟩ := hq
              rw [if_pos ⟨rfl, rfl⟩, reported_self hst, hmodG rfl]
            · rw [if_neg hq, reported_other hq]; exact h.countG port
          have hcountN : ∀ q port, q ≠ cfg.generic → (if q = p ∧ port = c.port then σ.count p c.port + 1 else σ.count q port)
              = min addThreshold (reported cfg (log ++ [(c, .parsed p)]) q port) := by
            intro q port hqg
            by_cases hq : q = p ∧ port = c.port
            · obtain ⟨rfl, rfl⟩ := hq
              rw [if_pos ⟨rfl, rfl⟩, reported_self hst, hcnt.2 hqg]
              have := hcnt.1
              simp only [addThreshold]; omega
            · rw [if_neg hq, reported_other hq]; exact h.countN q port hqg
          have hself : remembered cfg (log ++ [(c, .parsed p)]) p c.port ↔ σ.count p c.port + 1 = addThreshold := by
            have h1 := hcnt.1
            by_cases hpg : p = cfg.generic
            · have := hmodG hpg
              simp only [remembered, hpg, ↓reduceIte] at this ⊢
              subst hpg
              rw [reported_self hst, this]
              simp only [addThreshold]; omega
            · have := hcnt.2 hpg
              simp only [remembered, hpg, ↓reduceIte, reported_self hst, addThreshold]
              omega
          simp only [addPortCount, hc]
          by_cases hth : σ.count p c.port + 1 = addThreshold
          · rw [if_pos hth]
            obtain ⟨hinv', hlist⟩ := add_refines grow h.inv c.port p
            obtain ⟨k1, k2, k3⟩ : (listOf σ.cache c.port).Nodup ∧
                (cfg.generic ∈ listOf σ.cache c.port → (listOf σ.cache c.port).getLast? = some cfg.generic) ∧ True := by
              cases hs : AMap.get σ.cache.ports c.port with
              | none => simp [listOf, hs]
              | some s => exact ⟨(listOf_some h.inv hs).2.1, (listOf_some h.inv hs).2.2, trivial⟩
            refine ⟨_, _, rfl, hinv', ?_, hcountG, hcountN⟩
            intro q port
            simp only [hlist]
            by_cases hq : q = p ∧ port = c.port
            · obtain ⟨rfl, rfl⟩ := hq
              simp only [↓reduceIte, (specAdd_nodup k1 k2).2.2, true_or, true_iff]
              exact hself.2 hth
            · rw [remembered_other hq]
              by_cases hport : port = c.port
              · subst hport
                have hq' : q ≠ p := fun hh => hq ⟨hh, rfl⟩
                simp only [↓reduceIte, (specAdd_nodup k1 k2).2.2, hq', false_or]
                exact h.mem q _
              · rw [if_neg hport, h.mem]
          · rw [if_neg hth]
            refine ⟨_, _, rfl, h.inv, ?_, hcountG, hcountN⟩
            intro q port
            by_cases hq : q = p ∧ port = c.port
            · obtain ⟨rfl, rfl⟩ := hq
              simp only [hnot, false_iff]
              exact fun hh => hth (hself.1 hh)
            · rw [remembered_other hq]; exact h.mem q port

theorem runCalls_match (grow : Nat → Nat) (cfg : Cfg P) (calls : List (Call P)) :
    ∀ (σ : DSt P) (log : List (Call P × Out P)), Match cfg log σ →
    ∃ log' σ', runCalls grow cfg σ calls = some (log', σ') ∧ log'.map (·.1) = calls ∧ Match cfg (log ++ log') σ' := by
  induction calls with
  | nil => intro σ log h; exact ⟨[], σ, rfl, rfl, by simpa using h⟩
  | cons c cs ih =>
    intro σ log h
    obtain ⟨o, σ1, h1, hm1⟩ := step_match grow cfg h c
    obtain ⟨log', σ2, h2, h3, hm2⟩ := ih σ1 _ hm1
    refine ⟨(c, o) :: log', σ2, ?_, by simp [h3], by simpa using hm2⟩
    simp only [runCalls, h1, h2]

/-- C68.  After any sequence of exchanges, no matter which parsers accept them: nothing failed,
and a parser is tried first on a port exactly when it reported fifty exchanges there (the
generic one: fifty since its last multiple of five thousand), each such parser once, the generic
one last. -/
theorem cache_is_history (grow : Nat → Nat) (cfg : Cfg P) (calls : List (Call P)) :
    ∃ log σ, runCalls grow cfg initial calls = some (log, σ) ∧ log.map (·.1) = calls ∧
      ∀ port, (listOf σ.cache port).Nodup ∧
        (cfg.generic ∈ listOf σ.cache port → (listOf σ.cache port).getLast? = some cfg.generic) ∧
        ∀ p, p ∈ listOf σ.cache port ↔ remembered cfg log p port := by
  obtain ⟨log, σ, h1, h2, hm⟩ := runCalls_match grow cfg calls initial [] (match_initial cfg)
  refine ⟨log, σ, h1, h2, fun port => ?_⟩
  simp only [List.nil_append] at hm
  refine ⟨?_, ?_, fun p => hm.mem p port⟩
  · cases hs : AMap.get σ.cache.ports port with
    | none => simp [listOf, hs]
    | some s => exact (listOf_some hm.inv hs).2.1
  · cases hs : AMap.get σ.cache.ports port with
    | none => simp [listOf, hs]
    | some s => exact (listOf_some hm.inv hs).2.2

/-- A port fixed by configuration: the configured parser if it accepts, otherwise a record with the
configured protocol name; a connect failure when nothing was sent.  The cache and the counters
play no part and do not change. -/
theorem static_port (grow : Nat → Nat) (cfg : Cfg P) (σ : DSt P) (c : Call P) {proto : String}
    (h : AMap.get cfg.staticPorts c.port = some proto) :
    ∃ o, parseProtocols grow cfg σ c = some (o, σ) ∧
      (c.hasRequests = false → o = .connectFail) ∧
      (c.hasRequests = true → ∀ p, AMap.get cfg.protocolMap proto = some p → c.accepts p = true → o = .parsed p) ∧
      (c.hasRequests = true → (∀ p, AMap.get cfg.protocolMap proto = some p → c.accepts p = false) →
        o = .nameOnly proto) := by
  unfold parseProtocols
  simp only [h]
  cases hr : c.hasRequests with
  | false => exact ⟨_, rfl, fun _ => rfl, by simp, by simp⟩
  | true =>
    simp only [↓reduceIte]
    cases hm : AMap.get cfg.protocolMap proto with
    | none => exact ⟨_, rfl, by simp, by simp, by simp⟩
    | some p =>
      simp only
      cases ha : c.accepts p with
      | true => exact ⟨_, rfl, by simp, by simp, by simp [ha]⟩
      | false => exact ⟨_, rfl, by simp, by simp [ha], by simp⟩

/-- As long as the generic parser is not remembered for the port, an exchange that some named
parser accepts is reported by a parser that accepts it and is not the generic one. -/
theorem recognised_partial (grow : Nat → Nat) (cfg : Cfg P) {log : List (Call P × Out P)} {σ : DSt P}
    (h : Match cfg log σ) (c : Call P) (hr : c.hasRequests = true)
    (hst : AMap.get cfg.staticPorts c.port = none) (hg : ¬ remembered cfg log cfg.generic c.port)
    {p : P} (hp : p ∈ cfg.named) (hacc : c.accepts p = true) (hng : cfg.generic ∉ cfg.named) :
    ∃ q σ', parseProtocols grow cfg σ c = some (.parsed q, σ') ∧ q ≠ cfg.generic ∧ c.accepts q = true := by
  unfold parseProtocols
  simp only [hst, hr, ↓reduceIte]
  cases hf : (listOf σ.cache c.port).find? c.accepts with
  | some q =>
    have hmem := List.mem_of_find?_eq_some hf
    have hne : q ≠ cfg.generic := by
      rintro rfl; exact hg ((h.mem _ _).1 hmem)
    simp only [stepCached, hne, ↓reduceIte]
    exact ⟨q, σ, rfl, hne, List.find?_some hf⟩
  | none =>
    simp only
    unfold stepAll
    have hsome : (cfg.named.find? c.accepts).isSome := by
      rw [List.find?_isSome]; exact ⟨p, hp, hacc⟩
    obtain ⟨q, hq⟩ := Option.isSome_iff_exists.1 hsome
    have hfind : (cfg.named ++ [cfg.generic]).find? c.accepts = some q := by
      rw [List.find?_append, hq]; rfl
    rw [hfind]
    have hqm := List.mem_of_find?_eq_some hq
    have hne : q ≠ cfg.generic := by rintro rfl; exact hng hqm
    simp only
    split
    · exact ⟨q, _, rfl, hne, List.find?_some hq⟩
    · exact ⟨q, _, rfl, hne, List.find?_some hq⟩

/-- Recognition depends on what else used the port: once the generic parser is remembered there,
an exchange whose parser has not itself been remembered is reported as unknown — although the
parser accepts it — until the generic parser has reported five thousand. -/
theorem masked_by_generic (grow : Nat → Nat) (cfg : Cfg P) {log : List (Call P × Out P)} {σ : DSt P}
    (h : Match cfg log σ) (c : Call P) (hr : c.hasRequests = true)
    (hst : AMap.get cfg.staticPorts c.port = none) (hg : remembered cfg log cfg.generic c.port)
    (hgen : c.accepts cfg.generic = true)
    (hnone : ∀ p, p ≠ cfg.generic → remembered cfg log p c.port → c.accepts p = false) :
    ∃ σ', parseProtocols grow cfg σ c = some (.parsed cfg.generic, σ') := by
  obtain ⟨o, σ', h1, hm'⟩ := step_match grow cfg h c
  have hmem := (h.mem _ _).2 hg
  have hfind : (listOf σ.cache c.port).find? c.accepts = some cfg.generic := by
    have hsome : ((listOf σ.cache c.port).find? c.accepts).isSome := by
      rw [List.find?_isSome]; exact ⟨_, hmem, hgen⟩
    obtain ⟨q, hq⟩ := Option.isSome_iff_exists.1 hsome
    rw [hq]
    by_cases hqg : q = cfg.generic
    · rw [hqg]
    · have := hnone q hqg ((h.mem _ _).1 (List.mem_of_find?_eq_some hq))
      rw [List.find?_some hq] at this
      cases this
  unfold parseProtocols at h1 ⊢
  simp only [hst, hr, ↓reduceIte, hfind] at h1 ⊢
  unfold stepCached at h1 ⊢
  simp only [↓reduceIte] at h1 ⊢
  split
  · rename_i hth
    rw [if_pos hth] at h1
    cases hrm : remove σ.cache c.port cfg.generic with
    | none => rw [hrm] at h1; cases h1
    | some cache' => exact ⟨_, rfl⟩
  · exact ⟨_, rfl⟩

/-- The hypotheses are met by a run: fifty exchanges of an unknown protocol on port 9000, then one
that parser 1 accepts, is reported by the generic parser 0; on another port a named
parser reports it. -/
def cfgEx : Cfg Nat := ⟨[], [], [1], 0⟩
def unknown : Call Nat := ⟨9000, true, fun p => p == 0⟩
def known : Call Nat := ⟨9000, true, fun _ => true⟩
def knownElsewhere : Call Nat := ⟨80, true, fun _ => true⟩

theorem masked_example : ∃ log σ, runCalls (fun _ => 0) cfgEx initial (List.replicate 50 unknown) = some (log, σ) ∧
    Match cfgEx log σ ∧ remembered cfgEx log 0 9000 ∧
    (∃ σ', parseProtocols (fun _ => 0) cfgEx σ known = some (.parsed 0, σ')) ∧
    (∃ q σ', q ≠ 0 ∧ parseProtocols (fun _ => 0) cfgEx σ knownElsewhere = some (.parsed q, σ')) := by
  obtain ⟨log, σ, h1, h2, hm⟩ := runCalls_match (fun _ => 0) cfgEx (List.replicate 50 unknown) initial []
    (match_initial cfgEx)
  simp only [List.nil_append] at hm
  have key : (runCalls (fun _ => 0) cfgEx initial (List.replicate 50 unknown)).map
      (fun r => decide (reported cfgEx r.1 0 9000 = 50 ∧ reported cfgEx r.1 0 80 = 0 ∧
        reported cfgEx r.1 1 80 = 0 ∧ reported cfgEx r.1 1 9000 = 0)) = some true := by decide +kernel
  rw [h1] at key
  simp only [Option.map_some, Option.some.injEq, decide_eq_true_eq] at key
  have hrem : remembered cfgEx log 0 9000 := by
    simp [remembered, cfgEx, addThreshold, resetThreshold] at key ⊢; omega
  refine ⟨log, σ, h1, hm, hrem, ?_, ?_⟩
  · exact masked_by_generic _ cfgEx hm known rfl rfl hrem rfl (by
      intro p hp hr
      exfalso
      simp only [remembered, hp, ↓reduceIte] at hr
      have hone : ∀ q, q ∈ listOf σ.cache 9000 → q = 0 := by
        intro q hq
        have key2 : (runCalls (fun _ => 0) cfgEx initial (List.replicate 50 unknown)).map
          (fun r => listOf r.2.cache 9000) = some [0] := by decide +kernel
        rw [h1] at key2
        simp only [Option.map_some, Option.some.injEq] at key2
        rw [key2] at hq; simpa using hq
      exact hp (hone p ((hm.mem p 9000).2 (by simp only [remembered, hp, ↓reduceIte]; exact hr))))
  · have hng : ¬ remembered cfgEx log 0 80 := by
      simp [remembered, cfgEx, addThreshold, resetThreshold] at key ⊢; omega
    obtain ⟨q, σ', hq, hne, _⟩ := recognised_partial (fun _ => 0) cfgEx hm knownElsewhere rfl rfl hng
      (p := 1) (by simp [cfgEx]) rfl (by simp [cfgEx])
    exact ⟨q, σ', hne, hq⟩

end Kindling.Net.Dispatch
