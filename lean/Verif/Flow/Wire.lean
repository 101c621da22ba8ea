import Verif.Net.Wire
import Verif.Flow.Made
/-
From the wire to the counters of Prometheus: what the network analyzer reports (network_analyzer.go:302-478) is what the
aggregation processor, the adapter and the Prometheus exporter count (see Flow/Counted.lean).
-/
namespace Kindling.Flow.Wire
open Kindling Kindling.Agg Kindling.Export.Prom Kindling.Flow.Count Kindling.Flow.Counted Kindling.Flow.Made

/-- A record, as opposed to a tick of the timer or a scrape. -/
def isRecord : In → Bool
  | .record .. => true
  | _ => false

theorem count_records {p : In → Bool} (hp : ∀ i, p i = true → isRecord i = true) (is : List In) :
    is.countP p = (is.filter isRecord).countP p := by
  rw [List.countP_filter]
  refine List.countP_congr fun i _ => ?_
  constructor
  · intro h; simp [h, hp i h]
  · intro h; simpa using (Bool.and_eq_true .. ▸ h).1

/-- C122.  The counters count the exchanges on the wire.  `recs` are the records made of a report (one for each exchange of the
protocols that are parsed as one; see `Flow/Choose.lean` and `Net/Multi.lean`); they reach the processor in any order. -/
theorem wire_to_scrape {ncfg : Net.Cfg} {pa : Net.Parsers} {ops : List Net.Op} {late : Int} {st : Net.Mon} {out : List Net.Out}
    {ks : List Net.Key} (h : Net.run ncfg pa {} (ops ++ [.scan late]) = some (st, out)) (hks : ks.Nodup)
    (hall : ∀ op ∈ ops, ∀ k, (Net.Wire.own k op).isSome → k ∈ ks) (ho : ∀ k ∈ ks, Net.Wire.Orderly ncfg k none ops)
    (hp : ∀ k ∈ ks, ∀ x ∈ Net.Wire.exchanges none (ops.filterMap (Net.Wire.own k)), pa (x.pairs ncfg.snaplen) = false)
    (hq : ∀ k ∈ ks, ∀ x ∈ (Net.Wire.exchanges none (ops.filterMap (Net.Wire.own k))).getLast?, Net.Wire.Old ncfg late x)
    {recs : Net.Out → List In} {is : List In} (hin : (is.filter isRecord).Perm (out.flatMap recs))
    {cfg : Export.Adapter.Cfg} {nows : Nat → Int} (hf : FromAnalyzer is)
    (hs : ∀ now, In.scrape now ∉ is) {t : Export.Sanitize.Tables} (ht : ∀ c, 97 ≤ c → c ≤ 122 → t.letter c = true)
    {valid : List Nat → List (String × Bytes) → Bool} (now : Int) :
    let wire := (ks.flatMap fun k => Net.Wire.exchanges none (ops.filterMap (Net.Wire.own k))).flatMap
      fun x => recs (.report (x.pairs ncfg.snaplen))
    ∃ st ops ps out ps' ss, calls builtin [] ((is ++ [In.tick nows]).flatMap evOf) = some (st, ops) ∧
      prun t valid (promNet cfg) [] ops = some (ps, out) ∧ collect t valid ps now = some (ps', ss) ∧
      ∀ K, (∀ n, valid n (labelText (getLabels K)) = true) →
        (wire.countP (isReceived cfg K) ≠ 0 →
          ∃ ts, .counter (runes "kindling_entity_request_total") (labelText (getLabels K)) (wire.countP (isReceived cfg K)) ts ∈ ss) ∧
        (wire.countP (isSent cfg K) + wire.countP (isOutside cfg K) ≠ 0 →
          ∃ ts, .counter (runes "kindling_topology_request_total") (labelText (getLabels K))
            (wire.countP (isSent cfg K) + wire.countP (isOutside cfg K) : Nat) ts ∈ ss) := by
  intro wire
  have hperm : (is.filter isRecord).Perm wire := by
    refine hin.trans (((Net.Wire.reports_are_the_wire h hks hall ho hp hq).flatMap_right recs).trans (List.Perm.of_eq ?_))
    rw [List.flatMap_map]
  have e1 : ∀ K, is.countP (isReceived cfg K) = wire.countP (isReceived cfg K) := fun K => by
    rw [count_records (by rintro (_ | _ | _) h <;> first | rfl | cases h), hperm.countP_eq]
  have e2 : ∀ K, is.countP (isSent cfg K) = wire.countP (isSent cfg K) := fun K => by
    rw [count_records (by rintro (_ | _ | _) h <;> first | rfl | cases h), hperm.countP_eq]
  have e3 : ∀ K, is.countP (isOutside cfg K) = wire.countP (isOutside cfg K) := fun K => by
    rw [count_records (by rintro (_ | _ | _) h <;> first | rfl | cases h), hperm.countP_eq]
  have := analyzer_to_scrape (cfg := cfg) (nows := nows) hf hs ht (valid := valid) now
  simpa only [e1, e2, e3] using this

/-- Three exchanges on two connections, and their records. -/
example : ∃ (st : Net.Mon) (out : List Net.Out) (recs : Net.Out → List In) (is : List In),
    Net.run Net.Wire.cfgEx (fun _ => false) {} (Net.Wire.opsEx ++ [.scan 200000000000]) = some (st, out) ∧
    (is.filter isRecord).Perm (out.flatMap recs) ∧ is.length = 3 ∧ FromAnalyzer is ∧ ∀ now, In.scrape now ∉ is := by
  obtain ⟨s, hs, x, g, h1, h2, h3, -, h4⟩ := one_record
  obtain ⟨⟨st, out⟩, hr⟩ : ∃ r, Net.run Net.Wire.cfgEx (fun _ => false) {} (Net.Wire.opsEx ++ [.scan 200000000000]) = some r :=
    Option.isSome_iff_exists.1 (by decide +kernel)
  have hl : out.length = 3 := by
    have : (Net.run Net.Wire.cfgEx (fun _ => false) {} (Net.Wire.opsEx ++ [.scan 200000000000])).map (fun r => r.2.length) = some 3 := by
      decide +kernel
    rw [hr] at this
    simpa using this
  refine ⟨st, out, fun _ => [.record g false 0], out.flatMap fun _ => [.record g false 0], hr, ?_, ?_, ?_, ?_⟩
  · rw [List.filter_eq_self.2]
    intro i hi
    obtain ⟨o, -, ho⟩ := List.mem_flatMap.1 hi
    simp at ho
    subst ho
    rfl
  · have : ∀ l : List Net.Out, (l.flatMap fun _ => [In.record g false 0]).length = l.length := fun l => by
      induction l <;> simp_all
    rw [this, hl]
  · intro g' sm nw hi
    obtain ⟨o, -, ho⟩ := List.mem_flatMap.1 hi
    simp at ho
    obtain ⟨rfl, -, -⟩ := ho
    exact ⟨(by rw [h4]; intro k i hk; cases hk), s, 0, x, hs, h1, h2, h3⟩
  · intro now hi
    obtain ⟨o, -, ho⟩ := List.mem_flatMap.1 hi
    simp at ho

end Kindling.Flow.Wire
