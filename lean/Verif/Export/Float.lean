import Verif.Export.Prom
import Verif.Agg.Machine
/-
C116: what Prometheus gets are floats.

`Verif.Export.Prom` hands the integers of the aggregator to the Prometheus client.  The code converts them to `float64`
(collector.go:41, 51, 58), and its aggregator counts in 64 bits (`Verif.Agg.Machine`).  Here the exporter is written down with both.

Simplified as in the two models.  A `float64` that comes from an integer is an integer again (at most 2^64), so floats are
integers here; the conversion rounds to the nearest number of 53 significant binary digits, the even one of two (the language
specification refers to IEEE 754).  The client keeps the float it is given; how it is printed is not modelled.
-/
namespace Kindling.Export.Float
open Kindling Kindling.Agg Kindling.Export.Sanitize Kindling.Export.Prom

/-! ## Code -/

/-- `float64(n)` of a natural number: `e` binary digits are too many. -/
def f64Nat (n : Nat) : Nat :=
  let e := n.log2 - 52
  let q := n / 2 ^ e
  let r := n % 2 ^ e
  (if 2 ^ e < 2 * r ∨ (2 * r = 2 ^ e ∧ q % 2 = 1) then q + 1 else q) * 2 ^ e

/-- `float64(x)` of an `int64` (collector.go:41, 51, 58). -/
def f64 (x : Int) : Int := if x < 0 then -(f64Nat x.natAbs : Int) else f64Nat x.natAbs

/-- collector.go:48-52: the boundary as a float to the count. -/
def bucketMap : List Int → List Nat → AMap Int Nat → Option (AMap Int Nat)
  | [], _, acc => some acc
  | _ :: _, [], _ => none
  | b :: bs, c :: cs, acc => bucketMap bs cs (AMap.set acc (f64 b) c)

/-- collector.go:31-64, one metric; `none` is a panic. -/
def sampleOf (t : Tables) (valid : List Nat → List (String × Bytes) → Bool) (ls : List (String × Bytes)) (micros : Nat)
    (m : Metric) : Option (List Sample) :=
  match m.data with
  | .int v =>
    match sanitize t (runes m.name) true with
    | .ok n => some (if valid n ls then [.counter n ls (f64 v) micros] else [])
    | _ => none
  | .hist h =>
    match bucketMap h.bounds h.buckets [] with
    | none => none
    | some b =>
      match sanitize t (runes m.name) true with
      | .ok n => some (if valid n ls then [.hist n ls h.count (f64 h.sum) b micros] else [])
      | _ => none
  | .none => some []

/-- collector.go:21-65, one group. -/
def groupSamples (t : Tables) (valid : List Nat → List (String × Bytes) → Bool) (g : Group) : Option (List Sample) :=
  (mapOpt (sampleOf t valid (labelText g.labels) (g.ts / 1000)) g.metrics).map List.flatten

/-- collector.go:18-66 `Collect`. -/
def collect (t : Tables) (valid : List Nat → List (String × Bytes) → Bool) (st : CState) (now : Int) :
    Option (CState × List Sample) :=
  match Machine.cdump promExpiration st now with
  | none => none
  | some (st', gs) => (mapOpt (groupSamples t valid) gs).map (fun ss => (st', ss.flatten))

/-- consume.go:40-55 `Export` and `exportMetric`. -/
def exportAll (st : CState) (now : Int) : List Adapted → Option CState
  | [] => some st
  | r :: rs =>
    if r.isMetric then
      match Machine.caggregate promKinds st ⟨"", r.labels, r.ts, r.metrics⟩ now with
      | none => none
      | some st' => exportAll st' now rs
    else exportAll st now rs

/-- One call of the exporter: consume.go:9-38 `Consume` or collector.go:18-66 `Collect`. -/
def pstep (t : Tables) (valid : List Nat → List (String × Bytes) → Bool) (net : Group → List Adapted) (st : CState) :
    POp → Option (CState × List Sample)
  | .consume g now => (exportAll st now (adapt net g)).map (fun s => (s, []))
  | .collect now => collect t valid st now

/-- A history of the exporter from its start; `none` if some call panics. -/
def prun (t : Tables) (valid : List Nat → List (String × Bytes) → Bool) (net : Group → List Adapted) :
    CState → List POp → Option (CState × List Sample)
  | st, [] => some (st, [])
  | st, op :: ops => match pstep t valid net st op with
    | none => none
    | some (st', out) => (prun t valid net st' ops).map (fun p => (p.1, out ++ p.2))

/-! ## Specification -/

/-- A sample of the model of integers with its numbers as floats. -/
def asFloat : Sample → Sample
  | .counter n ls v ts => .counter n ls (f64 v) ts
  | .hist n ls c s b ts => .hist n ls c (f64 s) b ts

/-- The weight (`Machine.weight`) of all that the exporter ever records. -/
def pweight (net : Group → List Adapted) (ops : List POp) : Nat := Machine.ctotalWeight (ops.flatMap (recordsOf net))

/-- A natural number that is a `float64`: at most 53 significant binary digits. -/
def Exact (m : Nat) : Prop := ∃ q e, q < 2 ^ 53 ∧ m = q * 2 ^ e

/-- The distance of two numbers. -/
def dist (a b : Nat) : Nat := (a - b) + (b - a)

/-! ## Numbers -/

theorem small_exact {n : Nat} (h : n < 2 ^ 53) : f64Nat n = n := by
  have : n.log2 - 52 = 0 := by
    by_cases h0 : n = 0
    · subst h0; rfl
    · have := (Nat.log2_lt h0).2 h
      omega
  simp [f64Nat, this, Nat.mod_one]

/-- The quotient of a large number has 53 digits. -/
theorem large {n : Nat} (h : 2 ^ 53 ≤ n) : ∃ e, n.log2 - 52 = e ∧ 0 < e ∧ n.log2 = e + 52 ∧ 2 ^ 52 * 2 ^ e ≤ n ∧ n < 2 ^ 53 * 2 ^ e := by
  have h0 : n ≠ 0 := by rintro rfl; simp at h
  have h1 : 53 ≤ n.log2 := (Nat.le_log2 h0).2 h
  refine ⟨n.log2 - 52, rfl, by omega, by omega, ?_, ?_⟩
  · rw [← Nat.pow_add, show 52 + (n.log2 - 52) = n.log2 by omega]
    exact Nat.log2_self_le h0
  · rw [← Nat.pow_add, show 53 + (n.log2 - 52) = n.log2 + 1 by omega]
    exact Nat.lt_log2_self

/-- Rounding to a multiple of `d`. -/
theorem round_near (n d : Nat) (hd : 0 < d) (b : Bool) (hb : b = true → d ≤ 2 * (n % d)) (hb' : b = false → 2 * (n % d) ≤ d) (k : Nat) :
    dist ((if b then n / d + 1 else n / d) * d) n ≤ dist (k * d) n ∧ 2 * dist ((if b then n / d + 1 else n / d) * d) n ≤ d := by
  have hm := Nat.div_add_mod n d
  have hl := Nat.mod_lt n hd
  generalize n / d = q at *
  generalize n % d = r at *
  subst hm
  have e1 : q * d = d * q := Nat.mul_comm ..
  have e2 : (q + 1) * d = d * q + d := by rw [Nat.add_mul, e1]; omega
  have hk : k * d ≤ d * q ∨ d * q + d ≤ k * d := by
    by_cases h : k ≤ q
    · left; rw [Nat.mul_comm]; exact Nat.mul_le_mul_left d h
    · right
      have : d * (q + 1) ≤ d * k := Nat.mul_le_mul_left d (by omega)
      rw [Nat.mul_comm k d]; rw [Nat.mul_add] at this; omega
  generalize k * d = kd at *
  generalize d * q = dq at *
  cases b with
  | true =>
    have := hb rfl
    simp only [if_true, e2, dist]
    omega
  | false =>
    have := hb' rfl
    simp only [Bool.false_eq_true, if_false, e1, dist]
    omega

/-- The decision to round up, as a flag. -/
def up (n : Nat) : Bool :=
  decide (2 ^ (n.log2 - 52) < 2 * (n % 2 ^ (n.log2 - 52)) ∨
    (2 * (n % 2 ^ (n.log2 - 52)) = 2 ^ (n.log2 - 52) ∧ n / 2 ^ (n.log2 - 52) % 2 = 1))

theorem f64Nat_up (n : Nat) : f64Nat n = (if up n then n / 2 ^ (n.log2 - 52) + 1 else n / 2 ^ (n.log2 - 52)) * 2 ^ (n.log2 - 52) := by
  simp [f64Nat, up]

theorem near_multiple (n k : Nat) : dist (f64Nat n) n ≤ dist (k * 2 ^ (n.log2 - 52)) n ∧ 2 * dist (f64Nat n) n ≤ 2 ^ (n.log2 - 52) := by
  rw [f64Nat_up]
  refine round_near n _ (Nat.two_pow_pos _) (up n) ?_ ?_ k
  · intro h; simp only [up, decide_eq_true_eq] at h; omega
  · intro h; simp only [up, decide_eq_false_iff_not] at h; omega

/-- C116: the float is a float, no float is nearer to the number, and of two that are equally near the even one is taken. -/
theorem f64_nearest (n : Nat) : Exact (f64Nat n) ∧ (∀ m, Exact m → dist (f64Nat n) n ≤ dist m n) ∧
    ∀ e, 0 < e → n.log2 = e + 52 → 2 * dist (f64Nat n) n = 2 ^ e → ∃ q, f64Nat n = 2 * q * 2 ^ e := by
  by_cases hs : n < 2 ^ 53
  · rw [small_exact hs]
    refine ⟨⟨n, 0, hs, by simp⟩, fun m _ => by simp [dist], fun e _ _ h => ?_⟩
    have := Nat.two_pow_pos e
    simp [dist] at h
    omega
  · obtain ⟨e, he, hpos, hlog, h1, h2⟩ := large (Nat.le_of_not_lt hs)
    have hq : n / 2 ^ e < 2 ^ 53 := (Nat.div_lt_iff_lt_mul (Nat.two_pow_pos e)).2 h2
    have hq' : 2 ^ 52 ≤ n / 2 ^ e := (Nat.le_div_iff_mul_le (Nat.two_pow_pos e)).2 h1
    refine ⟨?_, ?_, ?_⟩
    · rw [f64Nat_up, he]
      split
      · by_cases hmax : n / 2 ^ e + 1 < 2 ^ 53
        · exact ⟨_, e, hmax, rfl⟩
        · refine ⟨2 ^ 52, e + 1, by decide, ?_⟩
          have : n / 2 ^ e + 1 = 2 ^ 53 := by omega
          rw [this, ← Nat.pow_add, ← Nat.pow_add]
          congr 1; omega
      · exact ⟨_, e, hq, rfl⟩
    · rintro m ⟨q1, e1, hq1, rfl⟩
      by_cases hm : 2 ^ 52 * 2 ^ e ≤ q1 * 2 ^ e1
      · have hee : e ≤ e1 := by
          apply Nat.le_of_not_lt
          intro hlt
          have : q1 * 2 ^ e1 < 2 ^ 53 * 2 ^ e1 := Nat.mul_lt_mul_of_pos_right hq1 (Nat.two_pow_pos e1)
          have h5 : 2 ^ 53 * 2 ^ e1 ≤ 2 ^ 52 * 2 ^ e := by
            rw [← Nat.pow_add, ← Nat.pow_add]
            exact Nat.pow_le_pow_right (by decide) (by omega)
          omega
        have e3 : q1 * 2 ^ e1 = (q1 * 2 ^ (e1 - e)) * 2 ^ (n.log2 - 52) := by
          rw [he, Nat.mul_assoc, ← Nat.pow_add]
          congr 2; omega
        rw [e3]
        exact (near_multiple n _).1
      · have := (near_multiple n (2 ^ 52)).1
        rw [he] at this
        refine Nat.le_trans this ?_
        unfold dist
        omega
    · intro e' _ hl' ht
      have : e' = e := by omega
      subst this
      rw [f64Nat_up, he] at ht ⊢
      have hm := Nat.div_add_mod n (2 ^ e')
      have hlt := Nat.mod_lt n (Nat.two_pow_pos e')
      have hup : up n = decide (2 ^ e' < 2 * (n % 2 ^ e') ∨ (2 * (n % 2 ^ e') = 2 ^ e' ∧ n / 2 ^ e' % 2 = 1)) := by unfold up; rw [he]
      generalize hqq : n / 2 ^ e' = q at *
      generalize hrr : n % 2 ^ e' = r at *
      generalize 2 ^ e' = d at *
      have e1 : q * d = d * q := Nat.mul_comm ..
      have e2 : (q + 1) * d = d * q + d := by rw [Nat.add_mul, e1]; omega
      cases hu : up n with
      | true =>
        rw [hup] at hu
        simp only [decide_eq_true_eq] at hu
        have hup' : up n = true := by rw [hup]; simpa using hu
        simp only [hup', if_true, e2, dist] at ht ⊢
        have h2r : 2 * r = d := by omega
        have hodd : q % 2 = 1 := by omega
        refine ⟨(q + 1) / 2, ?_⟩
        have : 2 * ((q + 1) / 2) = q + 1 := by omega
        rw [this]; omega
      | false =>
        rw [hup] at hu
        simp only [decide_eq_false_iff_not, not_or, not_and] at hu
        have hup' : up n = false := by rw [hup]; simp only [decide_eq_false_iff_not, not_or, not_and]; exact hu
        simp only [hup', Bool.false_eq_true, if_false, e1, dist] at ht ⊢
        have h2r : 2 * r = d := by omega
        have := hu.2 h2r
        refine ⟨q / 2, ?_⟩
        have : 2 * (q / 2) = q := by omega
        rw [this]; omega

/-- The float of a number is at least the power of two below it and at most the one above. -/
theorem f64_between {n : Nat} (h0 : n ≠ 0) : 2 ^ n.log2 ≤ f64Nat n ∧ f64Nat n ≤ 2 ^ (n.log2 + 1) := by
  by_cases hs : n < 2 ^ 53
  · rw [small_exact hs]
    exact ⟨Nat.log2_self_le h0, Nat.le_of_lt Nat.lt_log2_self⟩
  · obtain ⟨e, he, hpos, hlog, h1, h2⟩ := large (Nat.le_of_not_lt hs)
    have hq : n / 2 ^ e < 2 ^ 53 := (Nat.div_lt_iff_lt_mul (Nat.two_pow_pos e)).2 h2
    have hq' : 2 ^ 52 ≤ n / 2 ^ e := (Nat.le_div_iff_mul_le (Nat.two_pow_pos e)).2 h1
    rw [f64Nat_up, he, hlog]
    have a : 2 ^ (e + 52) = 2 ^ 52 * 2 ^ e := by rw [← Nat.pow_add, Nat.add_comm]
    have b : 2 ^ (e + 52 + 1) = 2 ^ 53 * 2 ^ e := by rw [← Nat.pow_add, show e + 52 + 1 = 53 + e by omega]
    rw [a, b]
    cases up n with
    | true =>
      rw [if_pos rfl]
      exact ⟨Nat.mul_le_mul_right _ (Nat.le_succ_of_le hq'), Nat.mul_le_mul_right _ hq⟩
    | false =>
      rw [if_neg (by simp)]
      exact ⟨Nat.mul_le_mul_right _ hq', Nat.mul_le_mul_right _ (Nat.le_of_lt hq)⟩

theorem f64Nat_mono {n m : Nat} (h : n ≤ m) : f64Nat n ≤ f64Nat m := by
  by_cases h0 : n = 0
  · subst h0; rw [small_exact (by decide)]; exact Nat.zero_le _
  have hm0 : m ≠ 0 := by omega
  by_cases hl : n.log2 = m.log2
  · rw [f64Nat_up n, f64Nat_up m]
    have hun : up n = decide (2 ^ (m.log2 - 52) < 2 * (n % 2 ^ (m.log2 - 52)) ∨
      (2 * (n % 2 ^ (m.log2 - 52)) = 2 ^ (m.log2 - 52) ∧ n / 2 ^ (m.log2 - 52) % 2 = 1)) := by unfold up; rw [hl]
    have hum : up m = decide (2 ^ (m.log2 - 52) < 2 * (m % 2 ^ (m.log2 - 52)) ∨
      (2 * (m % 2 ^ (m.log2 - 52)) = 2 ^ (m.log2 - 52) ∧ m / 2 ^ (m.log2 - 52) % 2 = 1)) := rfl
    rw [hl]
    apply Nat.mul_le_mul_right
    have hd := Nat.two_pow_pos (m.log2 - 52)
    generalize 2 ^ (m.log2 - 52) = d at *
    have hq : n / d ≤ m / d := Nat.div_le_div_right h
    have hn := Nat.div_add_mod n d
    have hm := Nat.div_add_mod m d
    by_cases he : n / d = m / d
    · have hr : n % d ≤ m % d := by rw [he] at hn; omega
      rw [← he] at hum ⊢
      by_cases hb : up n = true
      · have : up m = true := by
          rw [hun] at hb
          rw [hum]
          simp only [decide_eq_true_eq] at hb ⊢
          omega
        simp [hb, this]
      · rw [if_neg hb]
        split
        · exact Nat.le_succ _
        · exact Nat.le_refl _
    · split <;> split <;> omega
  · have hlt : n.log2 < m.log2 := by
      have : n.log2 ≤ m.log2 := (Nat.le_log2 hm0).2 (Nat.le_trans (Nat.log2_self_le h0) h)
      omega
    exact Nat.le_trans (f64_between h0).2 (Nat.le_trans (Nat.pow_le_pow_right (by decide) hlt) (f64_between hm0).1)

/-- C116: numbers below 2^53 are exact; the float of a larger number never falls when the number grows and is off by at most one
part in 2^53. -/
theorem f64_spec : (∀ x : Int, x.natAbs < 2 ^ 53 → f64 x = x) ∧ (∀ x y : Int, x ≤ y → f64 x ≤ f64 y) ∧
    ∀ x : Int, (f64 x - x).natAbs * 2 ^ 53 ≤ x.natAbs := by
  refine ⟨?_, ?_, ?_⟩
  · intro x h
    unfold f64
    rw [small_exact h]
    split <;> omega
  · intro x y h
    unfold f64
    by_cases hx : x < 0
    · by_cases hy : y < 0
      · rw [if_pos hx, if_pos hy]
        have := f64Nat_mono (show y.natAbs ≤ x.natAbs by omega)
        omega
      · rw [if_pos hx, if_neg hy]; omega
    · rw [if_neg hx, if_neg (show ¬ y < 0 by omega)]
      have := f64Nat_mono (show x.natAbs ≤ y.natAbs by omega)
      omega
  · intro x
    have key : dist (f64Nat x.natAbs) x.natAbs * 2 ^ 53 ≤ x.natAbs := by
      by_cases hs : x.natAbs < 2 ^ 53
      · rw [small_exact hs]; simp [dist]
      · obtain ⟨e, he, hpos, hlog, h1, h2⟩ := large (Nat.le_of_not_lt hs)
        have := (near_multiple x.natAbs 0).2
        rw [he] at this
        omega
    have : (f64 x - x).natAbs = dist (f64Nat x.natAbs) x.natAbs := by
      unfold f64 dist
      split <;> omega
    rw [this]; exact key

/-- C116, a consequence: beyond 2^54 additions are invisible: a total that is a float of `e + 53` digits is exported unchanged
after anything less than half of 2^e has been added. -/
theorem small_increase_invisible (q e d : Nat) (hq : 2 ^ 52 ≤ q) (hq' : q < 2 ^ 53) (hd : 2 * d < 2 ^ e) :
    f64 (q * 2 ^ e + d : Nat) = (q * 2 ^ e : Nat) := by
  have hpos := Nat.two_pow_pos e
  have hlog : (q * 2 ^ e + d).log2 = e + 52 := by
    have h0 : q * 2 ^ e + d ≠ 0 := by
      have := Nat.mul_pos (show 0 < q by omega) hpos
      omega
    have a : 2 ^ (e + 52) = 2 ^ 52 * 2 ^ e := by rw [← Nat.pow_add, Nat.add_comm]
    have b : 2 ^ (e + 53) = 2 ^ 53 * 2 ^ e := by rw [← Nat.pow_add, Nat.add_comm]
    have h1 : e + 52 ≤ (q * 2 ^ e + d).log2 := (Nat.le_log2 h0).2 (by rw [a]; have := Nat.mul_le_mul_right (2 ^ e) hq; omega)
    have h2 : (q * 2 ^ e + d).log2 < e + 53 := (Nat.log2_lt h0).2 (by
      rw [b]
      have := Nat.mul_le_mul_right (2 ^ e) (show q + 1 ≤ 2 ^ 53 from hq')
      rw [Nat.add_mul] at this
      omega)
    omega
  have hdiv : (q * 2 ^ e + d) / 2 ^ e = q := by
    rw [Nat.add_comm, Nat.add_mul_div_right _ _ hpos, Nat.div_eq_of_lt (by omega)]; omega
  have hmod : (q * 2 ^ e + d) % 2 ^ e = d := by
    rw [Nat.add_comm, Nat.add_mul_mod_self_right, Nat.mod_eq_of_lt (by omega)]
  have : f64Nat (q * 2 ^ e + d) = q * 2 ^ e := by
    unfold f64Nat
    simp only [hlog, show e + 52 - 52 = e by omega, hdiv, hmod]
    rw [if_neg (by omega)]
  unfold f64
  rw [if_neg (by omega), Int.natAbs_natCast, this]

/-! ## The exporter -/

theorem bucketMap_exact (bs : List Int) (cs : List Nat) (acc : AMap Int Nat) (h : ∀ b ∈ bs, f64 b = b) :
    bucketMap bs cs acc = Prom.bucketMap bs cs acc := by
  induction bs generalizing cs acc with
  | nil => rfl
  | cons b r ih =>
    cases cs with
    | nil => rfl
    | cons c cs =>
      simp only [bucketMap, Prom.bucketMap, h b (by simp)]
      exact ih _ _ (fun x hx => h x (by simp [hx]))

theorem bounds_exact : ∀ b ∈ promBounds, f64 b = b :=
  fun b hb => f64_spec.1 b (by revert b; decide)

/-- Every histogram of the series has the configured boundaries. -/
def VmHist (vm : ValuesMap) : Prop := ∀ p ∈ vm.values, ∀ v ∈ p.2, ∀ h, v.acc = .hist h → h.bounds = promBounds

theorem hist_apply {a a' : Acc} {d : MData} (h : a.apply d = some a') (ha : ∀ x, a = .hist x → x.bounds = promBounds) :
    ∀ x, a' = .hist x → x.bounds = promBounds := by
  rintro x rfl
  cases a with
  | hist s =>
    have hs := ha s rfl
    cases d with
    | none => simp [Acc.apply] at h; rw [← h]; exact hs
    | int v => simp [Acc.apply, Acc.calculate] at h; rw [← h]; exact hs
    | hist y =>
      simp only [Acc.apply, Acc.merge] at h
      split at h <;> rename_i h1
      · split at h1
        · simp at h1
        · split at h1
          · simp at h1
          · simp only [Res.ok.injEq] at h1
            cases h
            simp only [Acc.hist.injEq] at h1
            rw [← h1]; exact hs
      · simp only [Option.some.injEq, Acc.hist.injEq] at h; rw [← h]; exact hs
      · cases h
  | _ => cases d <;> simp [Acc.apply, Acc.calculate, Acc.merge] at h

theorem hist_recordAll {vm vm' : ValuesMap} {ms : List Metric} {ts : Nat} (ho : VmHist vm) (h : vm.recordAll ms ts = some vm') :
    VmHist vm' := by
  induction ms generalizing vm with
  | nil => cases h; exact ho
  | cons m ms ih =>
    simp only [ValuesMap.recordAll] at h
    split at h
    · cases h
    · rename_i vm1 h1
      refine ih ?_ h
      refine Machine.calculate_all h1 ho (fun _ h => h) ?_
      intro v v' hv ha
      simp only [AggVal.apply, Option.map_eq_some_iff] at ha
      obtain ⟨a, ha, rfl⟩ := ha
      exact hist_apply ha hv

theorem hist_new (ms : List Metric) : VmHist (newAggValuesMap (withDefault promKinds) ms) := by
  apply Machine.new_all
  intro m cs hm c hc x hx
  simp only [withDefault] at hm
  split at hm
  · rename_i cs' hp
    cases hm
    simp only [promKinds] at hp
    split at hp
    · cases hp
      simp only [List.mem_singleton] at hc; subst hc
      simp [newAggValue, Acc.init] at hx
    · split at hp
      · cases hp
        simp only [List.mem_singleton] at hc; subst hc
        simp only [newAggValue, Acc.init, Acc.hist.injEq] at hx
        rw [← hx]
      · split at hp
        · cases hp
          simp only [List.mem_singleton] at hc; subst hc
          simp only [newAggValue, Acc.init, Acc.hist.injEq] at hx
          rw [← hx]
        · cases hp
  · cases hm
    simp only [List.mem_singleton] at hc; subst hc
    simp [newAggValue, Acc.init] at hx

def StHist (st : CState) : Prop := ∀ p ∈ st, ∀ q ∈ p.2, VmHist q.2.vm

def MsHist (ms : List Metric) : Prop := ∀ m ∈ ms, ∀ h, m.data = .hist h → h.bounds = promBounds

theorem getAll_hist {vm : ValuesMap} (ho : VmHist vm) {ms : List Metric} (h : vm.getAll = some ms) : MsHist ms := by
  simp only [ValuesMap.getAll, Option.map_eq_some_iff] at h
  obtain ⟨l, h1, rfl⟩ := h
  intro m hm x hx
  obtain ⟨ys, hys, hmy⟩ := List.mem_flatten.1 hm
  obtain ⟨p, hp, hpy⟩ := (mapOpt_all2 h1).mem_right hys
  obtain ⟨v, hv, hvm⟩ := (mapOpt_all2 hpy).mem_right hmy
  simp only [AggVal.get, Option.map_eq_some_iff] at hvm
  obtain ⟨d, hd, rfl⟩ := hvm
  simp only at hx
  subst hx
  refine ho p hp v hv x ?_
  cases ha : v.acc with
  | hist y => rw [ha] at hd; simp [Acc.get] at hd; rw [hd]
  | avg a c => rw [ha] at hd; simp [Acc.get] at hd
  | _ => rw [ha] at hd; simp [Acc.get] at hd

theorem cdump_hist {ex : Int} {st st' : CState} {now : Int} {gs : List Group} (ho : StHist st) (h : cdump ex st now = some (st', gs)) :
    StHist st' ∧ ∀ g ∈ gs, MsHist g.metrics := by
  simp only [cdump, Option.map_eq_some_iff, Prod.mk.injEq] at h
  obtain ⟨l, h1, rfl, rfl⟩ := h
  refine ⟨?_, ?_⟩
  · intro p hp q hq
    obtain ⟨x, hx, rfl⟩ := List.mem_map.1 hp
    exact ho x hx q (List.mem_filter.1 hq).1
  · intro g hg
    obtain ⟨ys, hys, hgy⟩ := List.mem_flatten.1 hg
    obtain ⟨p, hp, hpy⟩ := (mapOpt_all2 h1).mem_right hys
    obtain ⟨q, hq, hqg⟩ := (mapOpt_all2 hpy).mem_right hgy
    simp only [Option.map_eq_some_iff] at hqg
    obtain ⟨ms, hms, rfl⟩ := hqg
    exact getAll_hist (ho p hp q hq) hms

theorem sampleOf_float (t : Tables) (valid : List Nat → List (String × Bytes) → Bool) (ls : List (String × Bytes)) (micros : Nat)
    (m : Metric) (hm : ∀ h, m.data = .hist h → h.bounds = promBounds) :
    sampleOf t valid ls micros m = (Prom.sampleOf t valid ls micros m).map (·.map asFloat) := by
  unfold sampleOf Prom.sampleOf
  cases hd : m.data with
  | none => rfl
  | int v =>
    simp only
    cases sanitize t (runes m.name) true with
    | ok n => simp only [Option.map_some]; split <;> simp [asFloat]
    | err => rfl
    | panic => rfl
  | hist h =>
    simp only
    rw [bucketMap_exact _ _ _ (by rw [hm h hd]; exact bounds_exact)]
    cases Prom.bucketMap h.bounds h.buckets [] with
    | none => rfl
    | some b =>
      simp only
      cases sanitize t (runes m.name) true with
      | ok n => simp only [Option.map_some]; split <;> simp [asFloat]
      | err => rfl
      | panic => rfl

theorem mapOpt_out {α β γ : Type} {f : α → Option γ} {g : α → Option β} {w : β → γ} {l : List α} (h : ∀ x ∈ l, f x = (g x).map w) :
    mapOpt f l = (mapOpt g l).map (·.map w) := by
  induction l with
  | nil => rfl
  | cons x r ih =>
    simp only [mapOpt, h x (by simp), ih (fun y hy => h y (by simp [hy]))]
    cases g x with
    | none => rfl
    | some y => cases mapOpt g r <;> rfl

theorem groupSamples_float (t : Tables) (valid : List Nat → List (String × Bytes) → Bool) (g : Group) (hg : MsHist g.metrics) :
    groupSamples t valid g = (Prom.groupSamples t valid g).map (·.map asFloat) := by
  unfold groupSamples Prom.groupSamples
  rw [mapOpt_out (fun m hm => sampleOf_float t valid _ _ m (hg m hm))]
  simp only [Option.map_map, Function.comp_def, List.map_flatten]

theorem exportAll_small {B : Nat} {st : CState} (now : Int) (rs : List Adapted) (hs : Machine.CStSmall B st) (hh : StHist st)
    (hB : B + Machine.ctotalWeight ((rs.filter (·.isMetric)).map (fun r => .record ⟨"", r.labels, r.ts, r.metrics⟩ now)) < 2 ^ 63) :
    exportAll st now rs = Prom.exportAll st now rs ∧ ∀ st', Prom.exportAll st now rs = some st' → StHist st' ∧
      Machine.CStSmall (B + Machine.ctotalWeight ((rs.filter (·.isMetric)).map (fun r => .record ⟨"", r.labels, r.ts, r.metrics⟩ now))) st' := by
  induction rs generalizing B st with
  | nil => exact ⟨rfl, by rintro st' h; cases h; exact ⟨hh, hs⟩⟩
  | cons r rs ih =>
    by_cases hr : r.isMetric = true
    · simp only [hr, List.filter_cons_of_pos, List.map_cons, Machine.ctotalWeight, List.sum_cons] at hB ⊢
      obtain ⟨h1, h2⟩ := Machine.cstep_small (kinds := promKinds) (ex := promExpiration) (.record ⟨"", r.labels, r.ts, r.metrics⟩ now) hs (by omega)
      have e : Machine.caggregate promKinds st ⟨"", r.labels, r.ts, r.metrics⟩ now =
          Agg.caggregate promKinds st ⟨"", r.labels, r.ts, r.metrics⟩ now := by
        have h3 := congrArg (Option.map Prod.fst) h1
        simp only [Machine.cstep, Agg.cstep, Option.map_map, Function.comp_def, Option.map_id'] at h3
        exact h3
      simp only [exportAll, Prom.exportAll, hr, if_true, e]
      cases hc : Agg.caggregate promKinds st ⟨"", r.labels, r.ts, r.metrics⟩ now with
      | none => exact ⟨rfl, by simp⟩
      | some s =>
        have h4 := h2 s [] (by simp [Agg.cstep, hc])
        have h5 : StHist s := Machine.caggregate_all hc hh (fun _ h => h) hist_new (fun _ _ hv hr => hist_recordAll hv hr)
        have := ih h4 h5 (by simp only [Machine.ctotalWeight]; omega)
        simp only [Machine.ctotalWeight, Nat.add_assoc] at this
        exact this
    · simp only [exportAll, Prom.exportAll, hr, Bool.false_eq_true, if_false, List.filter_cons_of_neg, not_false_eq_true] at hB ⊢
      exact ih hs hh hB

theorem ctotalWeight_append (a b : List COp) : Machine.ctotalWeight (a ++ b) = Machine.ctotalWeight a + Machine.ctotalWeight b := by
  simp [Machine.ctotalWeight]

theorem prun_float {t : Tables} {valid : List Nat → List (String × Bytes) → Bool} {net : Group → List Adapted} (ops : List POp)
    {B : Nat} {st : CState} (hs : Machine.CStSmall B st) (hh : StHist st) (hB : B + pweight net ops < 2 ^ 63) :
    prun t valid net st ops = (Prom.prun t valid net st ops).map (fun p => (p.1, p.2.map asFloat)) := by
  induction ops generalizing B st with
  | nil => rfl
  | cons op ops ih =>
    rw [pweight, List.flatMap_cons, ctotalWeight_append] at hB
    have key : pstep t valid net st op = (Prom.pstep t valid net st op).map (fun p => (p.1, p.2.map asFloat)) ∧
        ∀ st' out, Prom.pstep t valid net st op = some (st', out) → StHist st' ∧
          Machine.CStSmall (B + Machine.ctotalWeight (recordsOf net op)) st' := by
      cases op with
      | consume g now =>
        obtain ⟨h1, h2⟩ := exportAll_small now (adapt net g) hs hh (by simp only [recordsOf] at hB; omega)
        refine ⟨?_, ?_⟩
        · simp only [pstep, Prom.pstep, consume, h1, Option.map_map, Function.comp_def, List.map_nil]
        · intro st' out h
          simp only [Prom.pstep, consume, Option.map_eq_some_iff, Prod.mk.injEq] at h
          obtain ⟨s, h3, rfl, _⟩ := h
          exact h2 s h3
      | collect now =>
        obtain ⟨h1, h2⟩ := Machine.cstep_small (kinds := promKinds) (ex := promExpiration) (.dump now) hs
          (by simp only [Machine.copWeight]; omega)
        simp only [Machine.cstep, Agg.cstep] at h1 h2
        simp only [pstep, Prom.pstep, collect, Prom.collect, h1]
        cases hd : Agg.cdump promExpiration st now with
        | none => exact ⟨rfl, by simp⟩
        | some p =>
          obtain ⟨s, gs⟩ := p
          obtain ⟨h3, h4⟩ := cdump_hist hh hd
          refine ⟨?_, ?_⟩
          · simp only
            rw [mapOpt_out (fun g hg => groupSamples_float t valid g (h4 g hg))]
            simp only [Option.map_map, Function.comp_def, List.map_flatten]
          · intro st' out h
            simp only [Option.map_eq_some_iff, Prod.mk.injEq] at h
            obtain ⟨_, _, rfl, _⟩ := h
            refine ⟨h3, ?_⟩
            have := h2 s gs hd
            simpa [recordsOf, Machine.ctotalWeight] using this
    simp only [prun, Prom.prun, key.1]
    cases hp : Prom.pstep t valid net st op with
    | none => rfl
    | some r =>
      obtain ⟨s, o⟩ := r
      obtain ⟨h5, h6⟩ := key.2 s o hp
      simp only [Option.map_some]
      rw [ih h6 h5 (by rw [pweight]; omega)]
      simp only [Option.map_map, Function.comp_def, List.map_append]

/-- C116: as long as all that was ever recorded weighs less than 2^63, the exporter does what the model of integers does: it is in
the same state, panics at the same time, and hands the client the same samples with their numbers rounded to floats.  The
boundaries of the histograms are exact. -/
theorem floats_exported (t : Tables) (valid : List Nat → List (String × Bytes) → Bool) (net : Group → List Adapted) (ops : List POp)
    (h : pweight net ops < 2 ^ 63) :
    prun t valid net [] ops = (Prom.prun t valid net [] ops).map (fun p => (p.1, p.2.map asFloat)) :=
  prun_float ops (B := 0) (by simp [Machine.CStSmall]) (by simp [StHist]) (by omega)

theorem prun_snoc (t : Tables) (valid : List Nat → List (String × Bytes) → Bool) (net : Group → List Adapted) (st : CState) (ops : List POp)
    (op : POp) : prun t valid net st (ops ++ [op]) = match prun t valid net st ops with
      | none => none
      | some (s, out) => (pstep t valid net s op).map (fun p => (p.1, out ++ p.2)) := by
  induction ops generalizing st with
  | nil =>
    simp only [List.nil_append, prun]
    cases pstep t valid net st op <;> simp
  | cons o r ih =>
    simp only [List.cons_append, prun]
    cases pstep t valid net st o with
    | none => rfl
    | some q =>
      simp only [ih]
      cases prun t valid net q.1 r with
      | none => rfl
      | some z => simp [Option.map_map, Function.comp_def, List.append_assoc]

/-- A collection after such a history is the collection of the model of integers, with the numbers rounded. -/
theorem collect_float {t : Tables} {valid : List Nat → List (String × Bytes) → Bool} {net : Group → List Adapted}
    {ops : List POp} {st st' : CState} {out ss : List Sample} {now : Int} (hw : pweight net ops < 2 ^ 63)
    (h : prun t valid net [] ops = some (st, out)) (hc : collect t valid st now = some (st', ss)) :
    ∃ out' ss', Prom.prun t valid net [] ops = some (st, out') ∧ Prom.collect t valid st now = some (st', ss') ∧ ss = ss'.map asFloat := by
  have hw' : pweight net (ops ++ [.collect now]) < 2 ^ 63 := by
    rw [pweight, List.flatMap_append, ctotalWeight_append]
    simpa [recordsOf, Machine.ctotalWeight, Machine.copWeight, pweight] using hw
  have h1 := floats_exported t valid net ops hw
  have h2 := floats_exported t valid net _ hw'
  rw [prun_snoc, h] at h2
  rw [h] at h1
  obtain ⟨⟨s, o⟩, hp, he⟩ := Option.map_eq_some_iff.1 h1.symm
  simp only [Prod.mk.injEq] at he
  obtain ⟨rfl, rfl⟩ := he
  have h3 : Prom.prun t valid net [] (ops ++ [.collect now]) = (Prom.collect t valid s now).map (fun p => (p.1, o ++ p.2)) := by
    have aux : ∀ (l : List POp) (x : CState), Prom.prun t valid net x (l ++ [.collect now]) = match Prom.prun t valid net x l with
        | none => none
        | some (y, out) => (Prom.pstep t valid net y (.collect now)).map (fun p => (p.1, out ++ p.2)) := by
      intro l
      induction l with
      | nil => intro x; simp only [List.nil_append, Prom.prun]; cases Prom.pstep t valid net x (.collect now) <;> simp
      | cons q r ih =>
        intro x
        simp only [List.cons_append, Prom.prun]
        cases Prom.pstep t valid net x q with
        | none => rfl
        | some z =>
          simp only [ih]
          cases Prom.prun t valid net z.1 r with
          | none => rfl
          | some u => simp [Option.map_map, Function.comp_def, List.append_assoc]
    rw [aux, hp]; rfl
  rw [h3] at h2
  simp only [pstep, hc, Option.map_some] at h2
  cases hq : Prom.collect t valid s now with
  | none => rw [hq] at h2; cases h2
  | some q =>
    rw [hq] at h2
    simp only [Option.map_some, Option.some.injEq, Prod.mk.injEq, List.map_append, List.append_cancel_left_eq] at h2
    refine ⟨o, q.2, hp, ?_, h2.2⟩
    rw [h2.1]

/-- C116: every metric of a live label set that is not specially configured is exported as the float nearest to the total of
everything recorded for it while the label set was alive. -/
theorem counter_float {t : Tables} {valid : List Nat → List (String × Bytes) → Bool} {net : Group → List Adapted}
    {ops : List POp} {st st' : CState} {out ss : List Sample} {now : Int} (hw : pweight net ops < 2 ^ 63)
    (h : prun t valid net [] ops = some (st, out)) (hc : collect t valid st now = some (st', ss)) {k : LabelKeys} {r0 : CRec}
    {rs : List CRec} (hl : live net ops k = r0 :: rs) {m : String} (hm : m ∈ r0.1.map (·.name))
    (hk : m ≠ rttName ∧ m ≠ topoHist ∧ m ≠ entityHist) {n : List Nat} (hn : sanitize t (runes m) true = .ok n)
    (hv : valid n (labelText (getLabels k)) = true) :
    .counter n (labelText (getLabels k)) (f64 (total (valuesOf m (plain (r0 :: rs))))) (lastTs (r0 :: rs) / 1000) ∈ ss := by
  obtain ⟨o, s', h1, h2, rfl⟩ := collect_float hw h hc
  exact List.mem_map.2 ⟨_, counter_exported_partial h1 h2 hl hm hk hn hv, rfl⟩

/-- C116: the request time histograms are exported with the exact count, the exact counts at the exact boundaries, and the float
nearest to the sum. -/
theorem histogram_float {t : Tables} {valid : List Nat → List (String × Bytes) → Bool} {net : Group → List Adapted}
    {ops : List POp} {st st' : CState} {out ss : List Sample} {now : Int} (hw : pweight net ops < 2 ^ 63)
    (h : prun t valid net [] ops = some (st, out)) (hc : collect t valid st now = some (st', ss)) {k : LabelKeys} {r0 : CRec}
    {rs : List CRec} (hl : live net ops k = r0 :: rs) {m : String} (hm : m ∈ r0.1.map (·.name)) (hk : m = topoHist ∨ m = entityHist)
    {vss : List (List Int)} (hvs : All2 (Carries promBounds) (valuesOf m (plain (r0 :: rs))) vss)
    {n : List Nat} (hn : sanitize t (runes m) true = .ok n) (hv : valid n (labelText (getLabels k)) = true) :
    ∃ b, .hist n (labelText (getLabels k)) vss.flatten.length (f64 vss.flatten.sum) b (lastTs (r0 :: rs) / 1000) ∈ ss ∧
      ∀ x, AMap.get b x = if x ∈ promBounds then some (vss.flatten.countP (· ≤ x)) else none := by
  obtain ⟨o, s', h1, h2, rfl⟩ := collect_float hw h hc
  obtain ⟨b, hb, hx⟩ := histogram_exported h1 h2 hl hm hk hvs hn hv
  exact ⟨b, List.mem_map.2 ⟨_, hb, rfl⟩, hx⟩

theorem total_append (a b : List MData) : total (a ++ b) = total a + total b := by
  induction a with
  | nil => simp [total]
  | cons d r ih => cases d <;> simp only [List.cons_append, total, ih] <;> omega

/-- C116: a counter to which only non-negative totals are added never falls from one collection to a later one while its label
set stays alive, in spite of the rounding: both collections hand out a value, and the later is not the smaller. -/
theorem counter_never_falls {t : Tables} {valid : List Nat → List (String × Bytes) → Bool} {net : Group → List Adapted}
    {ops more : List POp} {st st' st2 st2' : CState} {out ss out2 ss2 : List Sample} {now now2 : Int}
    (hw : pweight net (ops ++ more) < 2 ^ 63)
    (h : prun t valid net [] ops = some (st, out)) (hc : collect t valid st now = some (st', ss))
    (h2 : prun t valid net [] (ops ++ more) = some (st2, out2)) (hc2 : collect t valid st2 now2 = some (st2', ss2))
    {k : LabelKeys} {r0 : CRec} {rs rs2 : List CRec} (hl : live net ops k = r0 :: rs) (hl2 : live net (ops ++ more) k = r0 :: rs ++ rs2)
    {m : String} (hm : m ∈ r0.1.map (·.name)) (hk : m ≠ rttName ∧ m ≠ topoHist ∧ m ≠ entityHist)
    (hpos : 0 ≤ total (valuesOf m (plain rs2))) {n : List Nat} (hn : sanitize t (runes m) true = .ok n)
    (hv : valid n (labelText (getLabels k)) = true) :
    ∃ v v' ts ts', .counter n (labelText (getLabels k)) v ts ∈ ss ∧ .counter n (labelText (getLabels k)) v' ts' ∈ ss2 ∧ v ≤ v' := by
  have hw1 : pweight net ops < 2 ^ 63 := by
    rw [pweight, List.flatMap_append, ctotalWeight_append] at hw
    rw [pweight]; omega
  refine ⟨_, _, _, _, counter_float hw1 h hc hl hm hk hn hv, counter_float hw h2 hc2 hl2 hm hk hn hv, f64_spec.2.1 _ _ ?_⟩
  have : valuesOf m (plain (r0 :: (rs ++ rs2))) = valuesOf m (plain (r0 :: rs)) ++ valuesOf m (plain rs2) := by
    simp [valuesOf, plain]
  show _ ≤ total (valuesOf m (plain (r0 :: (rs ++ rs2))))
  rw [this, total_append]
  omega

/-! ## Examples -/

/-- 2^53 + 1 lies halfway and goes to the even side, 2^53 + 3 as well; 2^53 + 2 is exact. -/
example : f64 9007199254740993 = 9007199254740992 ∧ f64 (-9007199254740995) = -9007199254740996 ∧
    f64 9007199254740994 = 9007199254740994 ∧ f64 9223372036854775807 = 9223372036854775808 := by decide +kernel

/-- The hypotheses of `small_increase_invisible`. -/
example : 2 ^ 52 ≤ 2 ^ 52 + 7 ∧ 2 ^ 52 + 7 < 2 ^ 53 ∧ 2 * 3 < 2 ^ 3 := by decide

/-- A group the simple adapter takes, with one value. -/
def took (v : Int) : Group := ⟨"tcp_retransmit_metric_group", [("pod", .str [49])], 5000, [⟨"duration", .int v⟩]⟩

/-- The hypotheses of the theorems above hold for a history past 2^53, and the last nanosecond is not seen. -/
example : pweight (fun _ => []) [.consume (took 9007199254740992) 0, .collect 1, .consume (took 1) 2] < 2 ^ 63 ∧
    (prun ascii (fun _ _ => true) (fun _ => []) [] [.consume (took 9007199254740992) 0, .collect 1, .consume (took 1) 2, .collect 3]).map (·.2) =
      some [.counter (runes "duration") [("pod", [49])] 9007199254740992 5, .counter (runes "duration") [("pod", [49])] 9007199254740992 5] ∧
    (Prom.prun ascii (fun _ _ => true) (fun _ => []) [] [.consume (took 9007199254740992) 0, .collect 1, .consume (took 1) 2, .collect 3]).map (·.2) =
      some [.counter (runes "duration") [("pod", [49])] 9007199254740992 5, .counter (runes "duration") [("pod", [49])] 9007199254740993 5] := by
  decide +kernel

example : ∃ k r0 rs2, getLabelsKeys (took 1).labels = .ok k ∧ live (fun _ => []) [.consume (took 9007199254740992) 0] k = r0 :: [] ∧
    live (fun _ => []) ([.consume (took 9007199254740992) 0] ++ [.collect 1, .consume (took 1) 2]) k = r0 :: [] ++ rs2 ∧
    "duration" ∈ r0.1.map (·.name) ∧ total (valuesOf "duration" (plain rs2)) = 1 ∧
    sanitize ascii (runes "duration") true = .ok (runes "duration") := by
  refine ⟨_, ([⟨"duration", .int 9007199254740992⟩], 5000, 0), [([⟨"duration", .int 1⟩], 5000, 2)], rfl, ?_, ?_, ?_, ?_, ?_⟩ <;>
    decide +kernel

/-- The bound is needed: past 2^63 the exported counter falls below zero. -/
theorem counter_overflows :
    (prun ascii (fun _ _ => true) (fun _ => []) [] [.consume (took (2 ^ 62)) 0, .collect 1, .consume (took (2 ^ 62)) 2, .collect 3]).map (·.2) =
      some [.counter (runes "duration") [("pod", [49])] (2 ^ 62) 5, .counter (runes "duration") [("pod", [49])] (-2 ^ 63) 5] := by
  decide +kernel

end Kindling.Export.Float
