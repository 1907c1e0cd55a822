import Verif.Rtt.Model
/-
C37: RTT estimator.
-/
namespace Ndn.Rtt

/-- The measurements of a history. -/
def Spec.samples (ops : List Op) : List Int :=
  ops.filterMap fun o => match o with | .measure r _ => some r | .backoff => none

theorem clamp_bounds {v lo hi : Int} (h : lo ≤ hi) : lo ≤ clamp v lo hi ∧ clamp v lo hi ≤ hi := by
  unfold clamp
  split
  · omega
  · split <;> omega

theorem run_append (o : Options) (mix : Mix) (l m : List Op) (s : St) :
    run o mix s (l ++ m) = (run o mix s l).bind fun s => run o mix s m := by
  induction l generalizing s with
  | nil => rfl
  | cons op l ih =>
    simp only [List.cons_append, run]
    cases step o mix s op with
    | none => rfl
    | some s' => exact ih s'

theorem run_concat (o : Options) (mix : Mix) (l : List Op) (op : Op) (s : St) :
    run o mix s (l ++ [op]) = (run o mix s l).bind fun s => step o mix s op := by
  rw [run_append]
  congr 1
  funext s'
  simp only [run]
  cases step o mix s' op <;> rfl

theorem computeRto_some {o : Options} {a b r : Int} (h : computeRto o a b = some r) :
    r = clamp (a + o.k * b) o.minRto o.maxRto := by
  unfold computeRto i64 at h
  split at h
  · simp only [Option.bind_some] at h
    split at h
    · simpa using h.symm
    · cases h
  · cases h

theorem step_rto {o : Options} {mix : Mix} {s s' : St} {op : Op} (h : step o mix s op = some s') :
    s'.rto = match op with
      | .measure _ _ => clamp (s'.sRtt + o.k * s'.rttVar) o.minRto o.maxRto
      | .backoff => clamp (s.rto * o.multiplier) o.minRto o.maxRto := by
  cases op with
  | measure r n =>
    simp only [step, addWithStats, addMeasurement] at h
    obtain ⟨s1, h1, h2⟩ := Option.bind_eq_some_iff.mp h
    obtain ⟨p, hp, h3⟩ := Option.bind_eq_some_iff.mp h2
    obtain ⟨q, hq, h4⟩ := Option.map_eq_some_iff.mp h3
    obtain ⟨r1, hr1, h5⟩ := Option.map_eq_some_iff.mp h1
    have := computeRto_some hr1
    subst h4
    subst h5
    exact this
  | backoff =>
    simp only [step, backoffRto] at h
    obtain ⟨r1, hr1, h5⟩ := Option.map_eq_some_iff.mp h
    subst h5
    unfold i64 at hr1
    split at hr1
    · simp only [Option.some.injEq] at hr1
      subst hr1
      rfl
    · cases hr1

/-! ### C37 -/

/-- After any non-empty history the RTO is within the configured bounds, whatever the moving averages
compute. -/
theorem C37_bounds (o : Options) (ho : o.Ok) (mix : Mix) (ops : List Op) (hne : ops ≠ []) (s : St)
    (h : run o mix (init o) ops = some s) : o.minRto ≤ s.rto ∧ s.rto ≤ o.maxRto := by
  rcases List.eq_nil_or_concat ops with h0 | ⟨l, op, rfl⟩
  · exact absurd h0 hne
  rw [List.concat_eq_append, run_concat] at h
  obtain ⟨s1, _, h2⟩ := Option.bind_eq_some_iff.mp h
  have := step_rto h2
  rw [this]
  cases op <;> exact clamp_bounds ho.max

/-- Before the first measurement or back-off the RTO is the configured initial value, which need not
lie within the bounds. -/
theorem C37_initial (o : Options) (mix : Mix) : run o mix (init o) [] = some (init o) ∧ (init o).rto = o.initialRto :=
  ⟨rfl, rfl⟩

/-- A back-off multiplies the RTO by the factor, up to the maximum. -/
theorem C37_backoff (o : Options) (ho : o.Ok) (mix : Mix) (s s' : St) (h : step o mix s .backoff = some s')
    (hb : o.minRto ≤ s.rto) :
    s' = { s with rto := min (s.rto * o.multiplier) o.maxRto } ∧ (s.rto ≤ o.maxRto → s.rto ≤ s'.rto) := by
  have h1 := step_rto h
  simp only at h1
  have hm := ho.multiplier
  have h0 : 0 ≤ s.rto := Int.le_trans ho.min hb
  have hge : s.rto ≤ s.rto * o.multiplier := by
    have := Int.mul_le_mul_of_nonneg_left hm h0
    simpa using this
  have h2 : s'.rto = min (s.rto * o.multiplier) o.maxRto := by
    rw [h1]
    unfold clamp
    rw [if_neg (by omega)]
    split <;> omega
  refine ⟨?_, fun hle => by omega⟩
  rw [← h2]
  simp only [step, backoffRto] at h
  obtain ⟨r1, hr1, h5⟩ := Option.map_eq_some_iff.mp h
  subst h5
  rfl

/-- After `n` consecutive back-offs the RTO is the initial one times the `n`-th power of the factor,
up to the maximum. -/
theorem C37_backoffs (o : Options) (ho : o.Ok) (mix : Mix) (s s' : St) (n : Nat)
    (h : run o mix s (List.replicate n .backoff) = some s') (hb : o.minRto ≤ s.rto) (hm : s.rto ≤ o.maxRto) :
    s'.rto = min (s.rto * o.multiplier ^ n) o.maxRto := by
  have h0 : 0 ≤ s.rto := Int.le_trans ho.min hb
  have hmax : 0 ≤ o.maxRto := Int.le_trans h0 hm
  have hmul := ho.multiplier
  induction n generalizing s' with
  | zero =>
    simp only [List.replicate_zero, run, Option.some.injEq] at h
    subst h
    simp only [Int.pow_zero, Int.mul_one]
    omega
  | succ n ih =>
    rw [List.replicate_succ', run_concat] at h
    obtain ⟨s1, h1, h2⟩ := Option.bind_eq_some_iff.mp h
    have h3 := ih s1 h1
    have hp : 1 ≤ o.multiplier ^ n := by
      have : 0 < o.multiplier ^ n := Int.pow_pos (by omega)
      omega
    have hge : s.rto ≤ s.rto * o.multiplier ^ n := by
      have := Int.mul_le_mul_of_nonneg_left hp h0
      simpa using this
    have h4 := (C37_backoff o ho mix s1 s' h2 (by omega)).1
    have h5 : s'.rto = min (s1.rto * o.multiplier) o.maxRto := by rw [h4]
    rw [h5, h3, Int.pow_succ, ← Int.mul_assoc]
    by_cases hc : s.rto * o.multiplier ^ n ≤ o.maxRto
    · rw [Int.min_eq_left hc]
    · have e1 : min (s.rto * o.multiplier ^ n) o.maxRto = o.maxRto := by omega
      rw [e1]
      have e2 : o.maxRto ≤ o.maxRto * o.multiplier := by
        have := Int.mul_le_mul_of_nonneg_left hmul hmax
        simpa using this
      have e3 : s.rto * o.multiplier ^ n ≤ s.rto * o.multiplier ^ n * o.multiplier := by
        have := Int.mul_le_mul_of_nonneg_left hmul (show 0 ≤ s.rto * o.multiplier ^ n by omega)
        simpa using this
      omega

/-- A measurement sets the RTO from the updated averages, within the bounds; the first measurement
sets the smoothed RTT to the sample and the variation to half of it. -/
theorem C37_measure (o : Options) (mix : Mix) (s s' : St) (r : Int) (n : Nat)
    (h : step o mix s (.measure r n) = some s') :
    s'.rto = clamp (s'.sRtt + o.k * s'.rttVar) o.minRto o.maxRto ∧
    (hasSamples s = false → s'.sRtt = r ∧ s'.rttVar = r.tdiv 2) ∧
    (hasSamples s = true → s'.sRtt = mix .alpha n s.sRtt r ∧ s'.rttVar = mix .beta n s.rttVar (s.sRtt - r).natAbs) := by
  refine ⟨step_rto h, ?_⟩
  simp only [step, addWithStats, addMeasurement] at h
  obtain ⟨s1, h1, h2⟩ := Option.bind_eq_some_iff.mp h
  obtain ⟨p, hp, h3⟩ := Option.bind_eq_some_iff.mp h2
  obtain ⟨q, hq, h4⟩ := Option.map_eq_some_iff.mp h3
  obtain ⟨r1, hr1, h5⟩ := Option.map_eq_some_iff.mp h1
  subst h4
  subst h5
  constructor
  · intro hf; simp [hf]
  · intro ht; simp [ht]

/-- What holds after every history of valid samples: by the samples' extrema and sum. -/
structure StatInv (l : List Int) (s : St) : Prop where
  n : s.n = l.length
  empty : l = [] → s.rttMin = 2 ^ 63 - 1 ∧ s.rttMax = - 2 ^ 63
  minLe : ∀ r ∈ l, s.rttMin ≤ r
  minMem : l ≠ [] → s.rttMin ∈ l
  maxGe : ∀ r ∈ l, r ≤ s.rttMax
  maxMem : l ≠ [] → s.rttMax ∈ l
  avg0 : 0 ≤ s.rttAvg
  avgSum : s.n * s.rttAvg ≤ l.sum
  avgLow : 2 * l.sum ≤ 2 * (s.n * s.rttAvg) + s.n * (s.n - 1)
  avgMin : l ≠ [] → s.rttMin ≤ s.rttAvg

theorem i64_some {x y : Int} (h : i64 x = some y) : y = x ∧ - 2 ^ 63 ≤ x ∧ x < 2 ^ 63 := by
  unfold i64 at h
  split at h
  · rename_i hx; exact ⟨by simpa using h.symm, hx⟩
  · cases h

theorem statInv_step {o : Options} {mix : Mix} {l : List Int} {s s' : St} {op : Op} (hi : StatInv l s)
    (hr : ∀ r n, op = .measure r n → 0 ≤ r ∧ r < 2 ^ 63) (h : step o mix s op = some s') :
    StatInv (match op with | .measure r _ => l ++ [r] | .backoff => l) s' := by
  cases op with
  | backoff =>
    simp only [step, backoffRto] at h
    obtain ⟨r1, _, h5⟩ := Option.map_eq_some_iff.mp h
    subst h5
    exact ⟨hi.n, hi.empty, hi.minLe, hi.minMem, hi.maxGe, hi.maxMem, hi.avg0, hi.avgSum, hi.avgLow, hi.avgMin⟩
  | measure r n =>
    obtain ⟨hr0, hr1⟩ := hr r n rfl
    simp only [step, addWithStats, addMeasurement] at h
    obtain ⟨s1, h1, h2⟩ := Option.bind_eq_some_iff.mp h
    obtain ⟨p, hp, h3⟩ := Option.bind_eq_some_iff.mp h2
    obtain ⟨q, hq, h4⟩ := Option.map_eq_some_iff.mp h3
    obtain ⟨rr, hrr, h5⟩ := Option.map_eq_some_iff.mp h1
    obtain ⟨rfl, _⟩ := i64_some hp
    obtain ⟨rfl, _⟩ := i64_some hq
    subst h4
    subst h5
    have hn0 : 0 ≤ s.n := by rw [hi.n]; omega
    have hprod : 0 ≤ s.n * s.rttAvg := Int.mul_nonneg hn0 hi.avg0
    have hdiv : (s.n * s.rttAvg + r).tdiv (s.n + 1) = (s.n * s.rttAvg + r) / (s.n + 1) :=
      Int.tdiv_eq_ediv_of_nonneg (by omega)
    have hd := Int.mul_ediv_add_emod (s.n * s.rttAvg + r) (s.n + 1)
    have hm1 := Int.emod_lt_of_pos (s.n * s.rttAvg + r) (show 0 < s.n + 1 by omega)
    have hm0 := Int.emod_nonneg (s.n * s.rttAvg + r) (show s.n + 1 ≠ 0 by omega)
    have havg : 0 ≤ (s.n * s.rttAvg + r) / (s.n + 1) := Int.ediv_nonneg (by omega) (by omega)
    refine ⟨?_, ?_, ?_, ?_, ?_, ?_, ?_, ?_, ?_, ?_⟩
    · simp [hi.n]
    · simp
    · intro x hx
      rcases List.mem_append.mp hx with hx | hx
      · have := hi.minLe x hx
        simp only
        omega
      · obtain rfl := List.mem_singleton.mp hx
        simp only
        omega
    · intro _
      simp only
      by_cases hl : l = []
      · have := hi.empty hl
        rw [Int.min_eq_left (by omega)]; simp
      · by_cases hc : r ≤ s.rttMin
        · rw [Int.min_eq_left hc]; simp
        · rw [Int.min_eq_right (by omega)]; simp [hi.minMem hl]
    · intro x hx
      rcases List.mem_append.mp hx with hx | hx
      · have := hi.maxGe x hx
        simp only
        omega
      · obtain rfl := List.mem_singleton.mp hx
        simp only
        omega
    · intro _
      simp only
      by_cases hl : l = []
      · have := hi.empty hl
        rw [Int.max_eq_left (by omega)]; simp
      · by_cases hc : s.rttMax ≤ r
        · rw [Int.max_eq_left hc]; simp
        · rw [Int.max_eq_right (by omega)]; simp [hi.maxMem hl]
    · simp only [hdiv]; exact havg
    · have := hi.avgSum
      simp only [hdiv, List.sum_append, List.sum_cons, List.sum_nil]
      omega
    · have := hi.avgLow
      simp only [hdiv, List.sum_append, List.sum_cons, List.sum_nil]
      have e : (s.n + 1) * (s.n + 1 - 1) = s.n * (s.n - 1) + 2 * s.n := by
        simp only [Int.add_sub_cancel, Int.mul_sub, Int.add_mul]
        omega
      rw [e]
      omega
    · intro _
      simp only [hdiv]
      by_cases hl : l = []
      · have h1 := hi.empty hl
        have h2 : s.n = 0 := by rw [hi.n, hl]; rfl
        rw [h2]
        simp only [Int.zero_mul, Int.zero_add, Int.ediv_one]
        omega
      · have h1 := hi.avgMin hl
        rw [Int.le_ediv_iff_mul_le (by omega)]
        rw [Int.mul_add, Int.mul_one]
        have h2 : min r s.rttMin * s.n ≤ s.n * s.rttAvg := by
          rw [Int.mul_comm]
          exact Int.mul_le_mul_of_nonneg_left (by omega) hn0
        omega

theorem statInv_run {o : Options} {mix : Mix} : ∀ (ops : List Op) (l : List Int) (s s' : St), StatInv l s →
    (∀ r ∈ Spec.samples ops, 0 ≤ r ∧ r < 2 ^ 63) → run o mix s ops = some s' → StatInv (l ++ Spec.samples ops) s' := by
  intro ops
  induction ops with
  | nil =>
    intro l s s' hi _ h
    simp only [run, Option.some.injEq] at h
    subst h
    simpa [Spec.samples] using hi
  | cons op ops ih =>
    intro l s s' hi hv h
    simp only [run] at h
    obtain ⟨s1, h1, h2⟩ := Option.bind_eq_some_iff.mp h
    have hst := statInv_step hi (fun r n e => hv r (by subst e; simp [Spec.samples])) h1
    cases op with
    | backoff =>
      have := ih l s1 s' hst (fun r hr => hv r (by simpa [Spec.samples] using hr)) h2
      simpa [Spec.samples] using this
    | measure r n =>
      have := ih (l ++ [r]) s1 s' hst (fun x hx => hv x (by simp only [Spec.samples, List.filterMap_cons]; exact List.mem_cons_of_mem _ hx)) h2
      simpa [Spec.samples] using this

/-- The statistics: minimum and maximum are the least and greatest sample; the average lies between
them, does not exceed the arithmetic mean, and is less than it by at most `(n - 1) / 2` nanoseconds. -/
theorem C37_stats (o : Options) (mix : Mix) (ops : List Op) (s : St) (h : run o mix (init o) ops = some s)
    (hv : ∀ r ∈ Spec.samples ops, 0 ≤ r ∧ r < 2 ^ 63) (hne : Spec.samples ops ≠ []) :
    (s.rttMin ∈ Spec.samples ops ∧ ∀ r ∈ Spec.samples ops, s.rttMin ≤ r) ∧
    (s.rttMax ∈ Spec.samples ops ∧ ∀ r ∈ Spec.samples ops, r ≤ s.rttMax) ∧
    s.rttMin ≤ s.rttAvg ∧ s.rttAvg ≤ s.rttMax ∧
    (Spec.samples ops).length * s.rttAvg ≤ (Spec.samples ops).sum ∧
    2 * (Spec.samples ops).sum ≤
      2 * ((Spec.samples ops).length * s.rttAvg) + (Spec.samples ops).length * ((Spec.samples ops).length - 1) := by
  have h0 : StatInv [] (init o) := by
    refine ⟨rfl, fun _ => ⟨rfl, rfl⟩, by simp, by simp, by simp, by simp, by simp [init], by simp [init], by simp [init], by simp⟩
  have hi := statInv_run ops [] (init o) s h0 hv h
  rw [List.nil_append] at hi
  refine ⟨⟨hi.minMem hne, hi.minLe⟩, ⟨hi.maxMem hne, hi.maxGe⟩, hi.avgMin hne, ?_, ?_, ?_⟩
  · have hlen : 0 < s.n := by
      rw [hi.n]
      have := List.length_pos_iff.mpr hne
      omega
    have hsum : (Spec.samples ops).sum ≤ s.n * s.rttMax := by
      rw [hi.n]
      have := hi.maxGe
      clear hv hne hi h h0 hlen
      generalize Spec.samples ops = l at this
      induction l with
      | nil => simp
      | cons a l ih =>
        have h1 := ih (fun r hr => this r (List.mem_cons_of_mem _ hr))
        have h2 := this a (List.mem_cons_self ..)
        simp only [List.sum_cons, List.length_cons]
        have : ((l.length + 1 : Nat) : Int) * s.rttMax = (l.length : Int) * s.rttMax + s.rttMax := by
          rw [Int.natCast_add, Int.add_mul]; simp
        rw [this]
        omega
    exact Int.le_of_mul_le_mul_left (Int.le_trans hi.avgSum hsum) hlen
  · rw [← hi.n]; exact hi.avgSum
  · rw [← hi.n]; exact hi.avgLow

/-- States of a history without overflow. -/
structure Safe (o : Options) (R : Int) (m : Nat) (s : St) : Prop where
  n : s.n = m
  rto0 : 0 ≤ s.rto
  rto : s.rto * o.multiplier < 2 ^ 63
  avg0 : 0 ≤ s.rttAvg
  avg : s.rttAvg ≤ R
  has : hasSamples s = true ↔ m ≠ 0
  bounds : m ≠ 0 → 0 ≤ s.sRtt ∧ s.sRtt ≤ R ∧ 0 ≤ s.rttVar ∧ s.rttVar ≤ R

theorem i64_ok {x : Int} (h0 : 0 ≤ x) (h : x < 2 ^ 63) : i64 x = some x := by
  unfold i64
  rw [if_pos (by omega)]

theorem safe_step {o : Options} (ho : o.Ok) {mix : Mix} {R : Int} (hR : 0 ≤ R)
    (hmix : ∀ w n x y, 0 ≤ x → x ≤ R → 0 ≤ y → y ≤ R → 0 ≤ mix w n x y ∧ mix w n x y ≤ R)
    (hk : (o.k + 1) * R < 2 ^ 63) (hmax : o.maxRto * o.multiplier < 2 ^ 63) {m : Nat} {s : St} (hs : Safe o R m s)
    (op : Op) (hv : ∀ r n, op = .measure r n → 0 ≤ r ∧ r ≤ R) (hn : ((m : Int) + 1) * R < 2 ^ 63) :
    ∃ s', step o mix s op = some s' ∧ Safe o R (match op with | .measure _ _ => m + 1 | .backoff => m) s' := by
  have hmul := ho.multiplier
  have hclamp : ∀ v, 0 ≤ clamp v o.minRto o.maxRto ∧ clamp v o.minRto o.maxRto * o.multiplier < 2 ^ 63 := by
    intro v
    have h1 := clamp_bounds (v := v) ho.max
    have h2 := ho.min
    refine ⟨by omega, ?_⟩
    exact Int.lt_of_le_of_lt (Int.mul_le_mul_of_nonneg_right h1.2 (by omega)) hmax
  cases op with
  | backoff =>
    have h1 : i64 (s.rto * o.multiplier) = some (s.rto * o.multiplier) :=
      i64_ok (Int.mul_nonneg hs.rto0 (by omega)) hs.rto
    refine ⟨{ s with rto := clamp (s.rto * o.multiplier) o.minRto o.maxRto }, ?_, ?_⟩
    · simp only [step, backoffRto, h1, Option.map_some]
    · exact ⟨hs.n, (hclamp _).1, (hclamp _).2, hs.avg0, hs.avg, hs.has, hs.bounds⟩
  | measure r n =>
    obtain ⟨hr0, hrR⟩ := hv r n rfl
    simp only [step, addWithStats, addMeasurement]
    generalize hsR : (if hasSamples s then mix .alpha n s.sRtt r else r) = sR
    generalize hsV : (if hasSamples s then mix .beta n s.rttVar (s.sRtt - r).natAbs else r.tdiv 2) = sV
    have hb : 0 ≤ sR ∧ sR ≤ R ∧ 0 ≤ sV ∧ sV ≤ R := by
      by_cases hh : hasSamples s = true
      · have h1 := hs.bounds (hs.has.mp hh)
        have h2 := hmix .alpha n s.sRtt r h1.1 h1.2.1 hr0 hrR
        have h3 := hmix .beta n s.rttVar (s.sRtt - r).natAbs h1.2.2.1 h1.2.2.2 (by omega) (by omega)
        rw [if_pos hh] at hsR hsV
        subst hsR hsV
        exact ⟨h2.1, h2.2, h3.1, h3.2⟩
      · rw [if_neg hh] at hsR hsV
        subst hsR hsV
        rw [Int.tdiv_eq_ediv_of_nonneg hr0]
        omega
    obtain ⟨b1, b2, b3, b4⟩ := hb
    have hkR : o.k * sV ≤ o.k * R := Int.mul_le_mul_of_nonneg_left b4 ho.k
    have hkV : 0 ≤ o.k * sV := Int.mul_nonneg ho.k b3
    rw [Int.add_mul, Int.one_mul] at hk
    have e1 : computeRto o sR sV = some (clamp (sR + o.k * sV) o.minRto o.maxRto) := by
      unfold computeRto
      rw [i64_ok hkV (by omega)]
      simp only [Option.bind_some]
      rw [i64_ok (by omega) (by omega)]
      rfl
    have hm0 : (0 : Int) ≤ m := by omega
    have hp0 : 0 ≤ (m : Int) * s.rttAvg := Int.mul_nonneg hm0 hs.avg0
    have hpR : (m : Int) * s.rttAvg ≤ m * R := Int.mul_le_mul_of_nonneg_left hs.avg hm0
    have hn' := hn
    rw [Int.add_mul, Int.one_mul] at hn
    have e2 : i64 (s.n * s.rttAvg) = some (s.n * s.rttAvg) := by rw [hs.n]; exact i64_ok hp0 (by omega)
    have e3 : i64 (s.n * s.rttAvg + r) = some (s.n * s.rttAvg + r) := by rw [hs.n]; exact i64_ok (by omega) (by omega)
    rw [e1]
    simp only [Option.map_some, Option.bind_some, e2, e3]
    refine ⟨_, rfl, ?_⟩
    refine ⟨by simp [hs.n], (hclamp _).1, (hclamp _).2, ?_, ?_, ?_, fun _ => ⟨b1, b2, b3, b4⟩⟩
    · simp only [hs.n]
      exact Int.tdiv_nonneg (by omega) (by omega)
    · simp only [hs.n]
      rw [Int.tdiv_eq_ediv_of_nonneg (by omega)]
      have : ((m : Int) * s.rttAvg + r) / (m + 1) ≤ ((m + 1) * R) / (m + 1) :=
        Int.ediv_le_ediv (by omega) (by rw [Int.add_mul]; omega)
      rw [Int.mul_ediv_cancel_left R (show ((m : Int) + 1) ≠ 0 by omega)] at this
      exact this
    · simp only [hasSamples]
      simp
      omega

/-- No overflow: if every sample is at most `R`, the moving averages stay within `[0, R]`, and
`(k + 1) * R`, `maxRto * multiplier`, `initialRto * multiplier` and the number of samples times `R` fit
in 63 bits, then every history is free of undefined behaviour; and after it samples are reported
exactly if there was one. -/
theorem C37_defined (o : Options) (ho : o.Ok) (mix : Mix) (R : Int) (hR : 0 ≤ R)
    (hmix : ∀ w n x y, 0 ≤ x → x ≤ R → 0 ≤ y → y ≤ R → 0 ≤ mix w n x y ∧ mix w n x y ≤ R)
    (hk : (o.k + 1) * R < 2 ^ 63) (hmax : o.maxRto * o.multiplier < 2 ^ 63)
    (hinit : o.initialRto * o.multiplier < 2 ^ 63) (ops : List Op)
    (hv : ∀ r ∈ Spec.samples ops, 0 ≤ r ∧ r ≤ R) (hn : (Spec.samples ops).length * R < 2 ^ 63) :
    ∃ s, run o mix (init o) ops = some s ∧ (hasSamples s = true ↔ Spec.samples ops ≠ []) ∧
      (Spec.samples ops ≠ [] → 0 ≤ s.sRtt ∧ s.sRtt ≤ R ∧ 0 ≤ s.rttVar ∧ s.rttVar ≤ R) := by
  have key : ∀ (l : List Op) (m : Nat) (s : St), Safe o R m s → (∀ r ∈ Spec.samples l, 0 ≤ r ∧ r ≤ R) →
      ((m + (Spec.samples l).length : Nat) : Int) * R < 2 ^ 63 →
      ∃ s', run o mix s l = some s' ∧ Safe o R (m + (Spec.samples l).length) s' := by
    intro l
    induction l with
    | nil => intro m s hs _ _; exact ⟨s, rfl, by simpa [Spec.samples] using hs⟩
    | cons op l ih =>
      intro m s hs hv hlen
      cases op with
      | backoff =>
        have h1 : i64 (s.rto * o.multiplier) = some (s.rto * o.multiplier) :=
          i64_ok (Int.mul_nonneg hs.rto0 (by have := ho.multiplier; omega)) hs.rto
        have hb := clamp_bounds (v := s.rto * o.multiplier) ho.max
        have hst : step o mix s .backoff = some { s with rto := clamp (s.rto * o.multiplier) o.minRto o.maxRto } := by
          simp only [step, backoffRto, h1, Option.map_some]
        have hs1 : Safe o R m { s with rto := clamp (s.rto * o.multiplier) o.minRto o.maxRto } := by
          refine ⟨hs.n, ?_, ?_, hs.avg0, hs.avg, hs.has, hs.bounds⟩
          · have := ho.min; simp only; omega
          · exact Int.lt_of_le_of_lt (Int.mul_le_mul_of_nonneg_right hb.2 (by have := ho.multiplier; omega)) hmax
        obtain ⟨s', h2, h3⟩ := ih m _ hs1 (fun r hr => hv r (by simpa [Spec.samples] using hr))
          (by simpa [Spec.samples] using hlen)
        refine ⟨s', ?_, by simpa [Spec.samples] using h3⟩
        simp only [run, hst, Option.bind_some]
        exact h2
      | measure r n =>
        have e : Spec.samples (.measure r n :: l) = r :: Spec.samples l := rfl
        rw [e] at hv hlen ⊢
        have hle : ((m : Int) + 1) * R < 2 ^ 63 := by
          refine Int.lt_of_le_of_lt (Int.mul_le_mul_of_nonneg_right ?_ hR) hlen
          simp only [List.length_cons]
          omega
        obtain ⟨s1, h1, h2⟩ := safe_step ho hR hmix hk hmax hs (.measure r n)
          (fun r' n' e => by cases e; exact hv r (List.mem_cons_self ..)) hle
        obtain ⟨s', h3, h4⟩ := ih (m + 1) s1 h2 (fun x hx => hv x (List.mem_cons_of_mem _ hx)) (by
          simp only [List.length_cons] at hlen
          rw [show m + 1 + (Spec.samples l).length = m + ((Spec.samples l).length + 1) by omega]
          exact hlen)
        refine ⟨s', ?_, ?_⟩
        · simp only [run, h1, Option.bind_some]; exact h3
        · rw [List.length_cons, show m + ((Spec.samples l).length + 1) = m + 1 + (Spec.samples l).length by omega]
          exact h4
  have h0 : Safe o R 0 (init o) := by
    refine ⟨rfl, ho.initial, hinit, by simp [init], by simpa [init] using hR, by simp [hasSamples, init], fun h => absurd rfl h⟩
  obtain ⟨s, h1, h2⟩ := key ops 0 (init o) h0 hv (by simpa using hn)
  rw [Nat.zero_add] at h2
  refine ⟨s, h1, ?_, ?_⟩
  · rw [h2.has, ne_eq, List.length_eq_zero_iff]
  · intro hne
    exact h2.bounds (by rw [ne_eq, List.length_eq_zero_iff]; exact hne)

-- a history with measurements and back-offs, with the default options and a mean as moving average
def dflt : Options := ⟨1000000000, 200000000, 60000000000, 4, 2⟩

example : dflt.Ok := ⟨by decide, by decide, by decide, by decide, by decide⟩

example : (run dflt (fun _ _ x y => (x + y) / 2) (init dflt) [.measure 100 1, .backoff, .measure 301 2, .backoff]).map
    (fun s => (s.rto, s.rttMin, s.rttMax, s.rttAvg)) = some (400000000, 100, 301, 200) := by decide

end Ndn.Rtt
