import Verif.Replay.MoreLemmas

/-!
Properties C53 (signed Interests), C54 (command Interests), C58 (timestamps of the signer).
-/
namespace Ndn.Replay
open Spec

variable {K : Type} [DecidableEq K]

/-! ### C53 -/

/-- C53, timestamps: in a sequential history with timestamps checked, an Interest accepted after
another acceptance under its key was recorded, and while that record is kept, has a later
SignatureTime. -/
theorem C53_timestamps (o : Opts) (hv : o.valTs = true) (now0 t0 : Nat) (ops : List (Op (Itm K)))
    (hs : Sequential (signed o) (init [] now0 t0) ops) (pre post : List (Obs (Itm K))) (j : Nat) (x : Itm K) (now t : Nat)
    (hlog : (run (signed o) (init [] now0 t0) ops).log = pre ++ .accepted j x now t :: post) (h3 : x.v03 = true)
    (a b : List (Itm K × Nat)) (y : Itm K × Nat) (hrec : recordings pre = a ++ y :: b) (hk : y.1.key = x.key)
    (hkept : Kept Itm.key o.maxRec a y b) :
    ∃ m m', y.1.time = some m ∧ x.time = some m' ∧ instant m < instant m' := by
  obtain ⟨r, _, h⟩ := signed_seq o now0 t0 ops hs pre j x now t post hlog
  exact (h h3 a y b hrec hk hkept).1 hv

/-- C53, sequence numbers. -/
theorem C53_seqnums (o : Opts) (hv : o.valSeq = true) (now0 t0 : Nat) (ops : List (Op (Itm K)))
    (hs : Sequential (signed o) (init [] now0 t0) ops) (pre post : List (Obs (Itm K))) (j : Nat) (x : Itm K) (now t : Nat)
    (hlog : (run (signed o) (init [] now0 t0) ops).log = pre ++ .accepted j x now t :: post) (h3 : x.v03 = true)
    (a b : List (Itm K × Nat)) (y : Itm K × Nat) (hrec : recordings pre = a ++ y :: b) (hk : y.1.key = x.key)
    (hkept : Kept Itm.key o.maxRec a y b) :
    ∃ n n', y.1.seq = some n ∧ x.seq = some n' ∧ n < n' := by
  obtain ⟨r, _, h⟩ := signed_seq o now0 t0 ops hs pre j x now t post hlog
  exact (h h3 a y b hrec hk hkept).2.1 hv

/-- C53, nonces: the nonce differs from those of the last `maxNonce` recorded acceptances under the
key (from all, without a limit). -/
theorem C53_nonces (o : Opts) (hv : o.valNonce = true) (now0 t0 : Nat) (ops : List (Op (Itm K)))
    (hs : Sequential (signed o) (init [] now0 t0) ops) (pre post : List (Obs (Itm K))) (j : Nat) (x : Itm K) (now t : Nat)
    (hlog : (run (signed o) (init [] now0 t0) ops).log = pre ++ .accepted j x now t :: post) (h3 : x.v03 = true)
    (a b : List (Itm K × Nat)) (y : Itm K × Nat) (hrec : recordings pre = a ++ y :: b) (hk : y.1.key = x.key)
    (hkept : Kept Itm.key o.maxRec a y b) (hw : o.maxNonce < 0 ∨ (countKey y.1.key b : Int) < o.maxNonce) :
    ∃ n n', y.1.nonce = some n ∧ x.nonce = some n' ∧ n ≠ n' := by
  obtain ⟨r, _, h⟩ := signed_seq o now0 t0 ops hs pre j x now t post hlog
  exact (h h3 a y b hrec hk hkept).2.2 hv hw

/-- C53, whatever the schedule: an accepted Interest has a key and every element the options require,
and its SignatureTime is within the grace period of the system clock when it arrived. -/
theorem C53_required (o : Opts) (now0 t0 : Nat) (ops : List (Op (Itm K))) (j : Nat) (x : Itm K) (now t : Nat)
    (h : Obs.accepted j x now t ∈ (run (signed o) (init [] now0 t0) ops).log) (h3 : x.v03 = true) :
    (∃ k, x.key = some k) ∧
    (o.valTs = true → ∃ m, x.time = some m ∧ ((now : Int) - instant m * 1000000).natAbs ≤ o.grace) ∧
    (o.valSeq = true → ∃ n, x.seq = some n) ∧
    (o.valNonce = true → ∃ n, x.nonce = some n) :=
  (signed_any o now0 t0 ops).2.2.1 j x now t h h3

/-- C53, whatever the schedule, without a limit on the records: an Interest that passes the check
compares correctly with the acceptance recorded last under its key. -/
theorem C53_last (o : Opts) (hmax : o.maxRec < 0) (now0 t0 : Nat) (ops : List (Op (Itm K)))
    (pre post : List (Obs (Itm K))) (j : Nat) (x : Itm K) (now t : Nat)
    (hlog : (run (signed o) (init [] now0 t0) ops).log = pre ++ .checked j x now t :: post) (h3 : x.v03 = true)
    (a b : List (Itm K × Nat)) (y : Itm K × Nat) (hrec : recordings pre = a ++ y :: b) (hk : y.1.key = x.key)
    (hlast : ∀ e ∈ b, e.1.key ≠ y.1.key) :
    (o.valTs = true → ∃ m m', y.1.time = some m ∧ x.time = some m' ∧ instant m < instant m') ∧
    (o.valSeq = true → ∃ n n', y.1.seq = some n ∧ x.seq = some n' ∧ n < n') ∧
    (o.valNonce = true → o.maxNonce ≠ 0 → ∃ n n', y.1.nonce = some n ∧ x.nonce = some n' ∧ n ≠ n') := by
  obtain ⟨recs, recs', hI, hc⟩ := (signed_any o now0 t0 ops).2.2.2 pre j x now t post hlog
  simp only [signed, Prod.mk.injEq] at hc
  obtain ⟨k, ts, hxk, hts, c1, c2, c3⟩ := check_pass hc.1 h3
  obtain ⟨r, hr, hyr, b1, b2, b3⟩ := hI.last hmax a y b hrec hlast
  have hrk : r.key = k := by rw [hk, hxk] at hyr; cases hyr; rfl
  have hf : findRec recs k = some r := by rw [← hrk]; exact findRec_of_mem hI.nodup hr
  rw [hf] at c1 c2 c3
  refine ⟨?_, ?_, ?_⟩
  · intro hv
    obtain ⟨m, hm, hrt⟩ := b1 hv
    obtain ⟨t', rfl, _, hlt⟩ := checkTs_pass c1 hv
    obtain ⟨m', hm', rfl⟩ := timeOf_some hts
    have := hlt r _ rfl hrt
    exact ⟨m, m', hm, hm', by omega⟩
  · intro hv
    obtain ⟨n, hn, hrn⟩ := b2 hv
    obtain ⟨n', hn', hlt⟩ := checkSeq_pass c2 hv
    exact ⟨n, n', hn, hn', hlt r n rfl hrn⟩
  · intro hv h0
    obtain ⟨n, hn, hrn⟩ := b3 hv h0
    obtain ⟨n', hn', hni⟩ := checkNonce_pass c3 hv
    refine ⟨n, n', hn, hn', ?_⟩
    rintro rfl
    exact hni r rfl hrn

/-- C53, whatever the schedule: an acceptance is recorded as soon as the callback of the user returns
(unless `maxRecordCount` is zero), so that the theorems above apply to it. -/
theorem C53_recorded (o : Opts) (hmax : o.maxRec ≠ 0) (now0 t0 : Nat) (ops : List (Op (Itm K))) (id : Nat) (x : Itm K)
    (now t : Nat) (h3 : x.v03 = true) (k : K) (hk : x.key = some k)
    (hdef : ∀ m, x.time = some m → int64 (instant m * 1000000) = true) :
    let s := run (signed o) (init [] now0 t0) ops
    (run (signed o) (init [] now0 t0) (ops ++ [.accept id])).log = s.log ++ [.accepted id x now t] →
    (run (signed o) (init [] now0 t0) (ops ++ [.accept id, .record id])).log =
      s.log ++ [.accepted id x now t, .recorded id x s.steady] := by
  apply accept_record
  intro t r
  show (insertRecord o t r x).isSome = true
  have ht : ∃ ts, timeOf x.time = some ts := by
    cases hm : x.time with
    | none => exact ⟨none, rfl⟩
    | some m =>
      have : fromMs m = if int64 (instant m * 1000000) then some (instant m * 1000000) else none := rfl
      rw [hdef m hm, if_pos rfl] at this
      exact ⟨some (instant m * 1000000), by simp [timeOf, this]⟩
  obtain ⟨ts, hts⟩ := ht
  simp [insertRecord, h3, hmax, hk, hts]

/-- C53, the other direction, whatever the schedule: an Interest that carries what is required, with a
time within the grace period, and with a time and sequence number greater than those of all recorded
acceptances under its key and another nonce, passes the check. -/
theorem C53_accepts (o : Opts) (now0 t0 : Nat) (ops : List (Op (Itm K))) (x : Itm K) (k : K)
    (hk : x.key = some k) :
    let s := run (signed o) (init [] now0 t0) ops
    (∀ m, x.time = some m → int64 (instant m * 1000000) = true) →
    (o.valTs = true → ∃ m, x.time = some m ∧ ((s.now : Int) - instant m * 1000000).natAbs ≤ o.grace ∧
      int64 ((s.now : Int) - instant m * 1000000) = true ∧
      ∀ e ∈ recordings s.log, e.1.key = some k → ∀ m', e.1.time = some m' → instant m' < instant m) →
    (o.valSeq = true → ∃ n, x.seq = some n ∧
      ∀ e ∈ recordings s.log, e.1.key = some k → ∀ n', e.1.seq = some n' → n' < n) →
    (o.valNonce = true → ∃ n, x.nonce = some n ∧
      ∀ e ∈ recordings s.log, e.1.key = some k → e.1.nonce ≠ some n) →
    (run (signed o) (init [] now0 t0) (ops ++ [.arrive x])).log = s.log ++ [.checked s.next x s.now s.steady] := by
  intro s hdef hts hseq hnon
  have hI := (signed_any o now0 t0 ops).1
  rw [run_snoc]
  have hs : s = run (signed o) (init [] now0 t0) ops := rfl
  rw [← hs] at hI ⊢
  clear_value s
  have hc : check o s.now s.recs x = .pass := by
    simp only [check]
    cases h3 : x.v03 with
    | false => simp
    | true =>
      simp only [Bool.not_true, Bool.false_eq_true, if_false, hk]
      have ht : ∃ ts, timeOf x.time = some ts ∧ ∀ m, x.time = some m → ts = some (instant m * 1000000) := by
        cases hm : x.time with
        | none => exact ⟨none, rfl, by simp⟩
        | some m =>
          have : fromMs m = if int64 (instant m * 1000000) then some (instant m * 1000000) else none := rfl
          rw [hdef m hm, if_pos rfl] at this
          exact ⟨some (instant m * 1000000), by simp [timeOf, this], by simp⟩
      obtain ⟨ts, hts1, hts2⟩ := ht
      simp only [hts1]
      have c1 : checkTs o s.now (findRec s.recs k) ts = .pass := by
        simp only [checkTs]
        cases hv : o.valTs with
        | false => simp
        | true =>
          obtain ⟨m, hm, hg, hi, hall⟩ := hts hv
          rw [hts2 m hm]
          simp only [if_true, hi, Bool.not_true, Bool.false_eq_true, if_false]
          rw [if_neg (by omega)]
          cases hb : (findRec s.recs k).bind Rec.ts with
          | none => rfl
          | some rt =>
            cases hf : findRec s.recs k with
            | none => simp [hf] at hb
            | some r =>
              simp [hf] at hb
              obtain ⟨hr, hrk⟩ := findRec_some hf
              obtain ⟨e, he, hek, m', hm', rfl⟩ := hI.ts r hr rt hb
              have := hall e he (by rw [hek, hrk]) m' hm'
              simp only
              rw [if_neg (by omega)]
      have c2 : checkSeq o (findRec s.recs k) x.seq = .pass := by
        simp only [checkSeq]
        cases hv : o.valSeq with
        | false => simp
        | true =>
          obtain ⟨n, hn, hall⟩ := hseq hv
          rw [hn]
          simp only [if_true]
          cases hb : (findRec s.recs k).bind Rec.seq with
          | none => rfl
          | some rn =>
            cases hf : findRec s.recs k with
            | none => simp [hf] at hb
            | some r =>
              simp [hf] at hb
              obtain ⟨hr, hrk⟩ := findRec_some hf
              obtain ⟨e, he, hek, hen⟩ := hI.seq r hr rn hb
              have := hall e he (by rw [hek, hrk]) rn hen
              simp only
              rw [if_neg (by omega)]
      have c3 : checkNonce o (findRec s.recs k) x.nonce = .pass := by
        simp only [checkNonce]
        cases hv : o.valNonce with
        | false => simp
        | true =>
          obtain ⟨n, hn, hall⟩ := hnon hv
          rw [hn]
          simp only [if_true]
          cases hf : findRec s.recs k with
          | none => rfl
          | some r =>
            obtain ⟨hr, hrk⟩ := findRec_some hf
            simp only
            have : n ∉ r.nonces := by
              intro hm
              obtain ⟨e, he, hek, hen⟩ := hI.nonce r hr n hm
              exact hall e he (by rw [hek, hrk]) hen
            simp [this]
      simp [c1, c2, c3]
  simp [step, signed, hc]

/-- A check for `Sequential` on concrete histories. -/
def seqB {X R : Type} (P : Policy X R) : St X R → List (Op X) → Bool
  | _, [] => true
  | s, op :: ops => (match op with | .arrive _ => s.pend.isEmpty | _ => true) && seqB P (step P s op) ops

theorem sequential_of {X R : Type} {P : Policy X R} : ∀ {s : St X R} {ops : List (Op X)},
    seqB P s ops = true → Sequential P s ops
  | s, [], _ => by intro pre x post e; simp at e
  | s, op :: ops, h => by
    intro pre x post e
    cases pre with
    | nil =>
      simp at e
      obtain ⟨rfl, rfl⟩ := e
      simp [seqB] at h
      simpa [run] using h.1
    | cons q pre =>
      simp at e
      obtain ⟨rfl, rfl⟩ := e
      simp [seqB] at h
      exact sequential_of h.2 pre x post rfl

def exI (k m n : Nat) : Itm Nat := ⟨true, some k, some m, some n, some [UInt8.ofNat n]⟩

/-- A sequential history with two keys: four Interests accepted and recorded, then a replay rejected. -/
def exSigned : List (Op (Itm Nat)) :=
  [.arrive (exI 1 1000 1), .accept 0, .record 0, .advance 1000000000,
   .arrive (exI 2 1500 1), .accept 1, .record 1, .advance 1000000000,
   .arrive (exI 1 2500 2), .accept 2, .record 2, .advance 1000000000,
   .arrive (exI 1 2500 2)]

def exOpts : Opts := { valSeq := true, maxNonce := 2, maxRec := 2 }

/-- The hypotheses of C53_timestamps, C53_seqnums and C53_nonces are met: the third acceptance, with
the first in the record although another key was recorded since. -/
example : ∃ m m', (exI 1 1000 1).time = some m ∧ (exI 1 2500 2).time = some m' ∧ instant m < instant m' :=
  C53_timestamps exOpts rfl 1000000000 0 exSigned (sequential_of (by decide))
    [.checked 0 (exI 1 1000 1) 1000000000 0, .accepted 0 (exI 1 1000 1) 1000000000 0, .recorded 0 (exI 1 1000 1) 0,
     .checked 1 (exI 2 1500 1) 2000000000 1000000000, .accepted 1 (exI 2 1500 1) 2000000000 1000000000,
     .recorded 1 (exI 2 1500 1) 1000000000, .checked 2 (exI 1 2500 2) 3000000000 2000000000]
    [.recorded 2 (exI 1 2500 2) 2000000000, .rejected (exI 1 2500 2)] 2 (exI 1 2500 2) 3000000000 2000000000
    (by decide) rfl [] [(exI 2 1500 1, 1000000000)] (exI 1 1000 1, 0) (by decide) rfl
    (Or.inr ⟨⟨[2], by decide, by decide⟩, by simp [Ticking]⟩)

example : exOpts.valSeq = true ∧ exOpts.valNonce = true ∧
    (countKey (some 1) [(exI 2 1500 1, 1000000000)] : Int) < exOpts.maxNonce := by decide

/-! #### Where C53 fails -/

/-- The claim, for any two accepted v0.3 Interests of one key and any schedule. -/
def C53_overlap_claim : Prop :=
  ∀ (o : Opts) (ops : List (Op (Itm Nat))) (i j : Nat) (y x : Itm Nat) (ny ty nx tx : Nat) (a b c : List (Obs (Itm Nat))),
    o.valTs = true → o.maxRec < 0 → (run (signed o) (init [] 0 0) ops).log =
      a ++ .accepted i y ny ty :: (b ++ .accepted j x nx tx :: c) → y.v03 = true → x.v03 = true → y.key = x.key →
    ∃ m m', y.time = some m ∧ x.time = some m' ∧ instant m < instant m'

/-- Validations that overlap: the same Interest arrives twice before the first validation ends, and both
are accepted. -/
theorem C53_overlap_counterexample : ¬ C53_overlap_claim := by
  intro h
  have := h { maxRec := -1 } [.arrive (exI 1 5 1), .arrive (exI 1 5 1), .accept 0, .record 0, .accept 1, .record 1]
    0 1 (exI 1 5 1) (exI 1 5 1) 0 0 0 0 [.checked 0 (exI 1 5 1) 0 0, .checked 1 (exI 1 5 1) 0 0]
    [.recorded 0 (exI 1 5 1) 0] [.recorded 1 (exI 1 5 1) 0] rfl (by decide) (by decide) rfl rfl rfl
  obtain ⟨m, m', h1, h2, h3⟩ := this
  cases h1; cases h2
  omega

/-- The claim for an Interest that arrives when nothing is being validated, after overlapping
validations. -/
def C53_rollback_claim : Prop :=
  ∀ (o : Opts) (ops : List (Op (Itm Nat))) (x : Itm Nat) (n now t : Nat) (y : Itm Nat × Nat),
    let s := run (signed o) (init [] 0 0) ops
    o.valTs = true → o.maxRec < 0 → s.pend = [] → y ∈ recordings s.log → y.1.key = x.key → x.v03 = true →
    (run (signed o) (init [] 0 0) (ops ++ [.arrive x])).log = s.log ++ [.checked n x now t] →
    ∃ m m', y.1.time = some m ∧ x.time = some m' ∧ instant m < instant m'

/-- The record takes the time of the validation that ends last, not the latest time: it can go back, and
an Interest older than one already accepted is accepted later. -/
theorem C53_rollback_counterexample : ¬ C53_rollback_claim := by
  intro h
  have := h { maxRec := -1 }
    [.arrive (exI 1 5 1), .arrive (exI 1 3 2), .accept 0, .record 0, .accept 1, .record 1]
    (exI 1 4 3) 2 0 0 (exI 1 5 1, 0) rfl (by decide) rfl (by decide) rfl rfl (by decide)
  obtain ⟨m, m', h1, h2, h3⟩ := this
  cases h1; cases h2
  revert h3; decide

/-- The claim for sequential validation of signed Interests of any format. -/
def C53_v02_claim : Prop :=
  ∀ (o : Opts) (ops : List (Op (Itm Nat))) (i j : Nat) (y x : Itm Nat) (ny ty nx tx : Nat) (a b c : List (Obs (Itm Nat))),
    Sequential (signed o) (init [] 0 0) ops → (∀ id, Op.throw id ∉ ops) →
    o.valTs = true → o.maxRec < 0 → (run (signed o) (init [] 0 0) ops).log =
      a ++ .accepted i y ny ty :: (b ++ .accepted j x nx tx :: c) → y.key = x.key →
    ∃ m m', y.time = some m ∧ x.time = some m' ∧ instant m < instant m'

/-- Interests signed in the v0.2 format are passed to the inner policy without any check: they can be
replayed. -/
theorem C53_v02_counterexample : ¬ C53_v02_claim := by
  intro h
  let x : Itm Nat := ⟨false, some 1, none, none, none⟩
  have := h { maxRec := -1 } [.arrive x, .accept 0, .record 0, .arrive x, .accept 1, .record 1]
    0 1 x x 0 0 0 0 [.checked 0 x 0 0] [.checked 1 x 0 0] [] (sequential_of (by decide))
    (by simp) rfl (by decide) (by decide) rfl
  obtain ⟨m, m', h1, _⟩ := this
  cases h1

/-- The claim for sequential validation with callbacks that may throw. -/
def C53_throw_claim : Prop :=
  ∀ (o : Opts) (ops : List (Op (Itm Nat))) (i j : Nat) (y x : Itm Nat) (ny ty nx tx : Nat) (a b c : List (Obs (Itm Nat))),
    Sequential (signed o) (init [] 0 0) ops → (∀ z, Op.arrive z ∈ ops → z.v03 = true) →
    o.valTs = true → o.maxRec < 0 → (run (signed o) (init [] 0 0) ops).log =
      a ++ .accepted i y ny ty :: (b ++ .accepted j x nx tx :: c) → y.key = x.key →
    ∃ m m', y.time = some m ∧ x.time = some m' ∧ instant m < instant m'

/-- The success callback runs before the record is made: when it throws, the Interest was accepted but
is not remembered. -/
theorem C53_throw_counterexample : ¬ C53_throw_claim := by
  intro h
  have := h { maxRec := -1 } [.arrive (exI 1 5 1), .accept 0, .throw 0, .arrive (exI 1 5 1), .accept 1, .record 1]
    0 1 (exI 1 5 1) (exI 1 5 1) 0 0 0 0 [.checked 0 (exI 1 5 1) 0 0] [.checked 1 (exI 1 5 1) 0 0]
    [.recorded 1 (exI 1 5 1) 0] (sequential_of (by decide)) (by simp [exI]) rfl (by decide) (by decide) rfl
  obtain ⟨m, m', h1, h2, h3⟩ := this
  cases h1; cases h2
  omega

/-- The claim that every Interest is handled within defined behaviour. -/
def C53_defined_claim : Prop :=
  ∀ (o : Opts) (ops : List (Op (Itm Nat))), Obs.undefined ∉ (run (signed o) (init [] 0 0) ops).log

/-- A SignatureTime of 9223372036855 ms or more overflows the conversion to nanoseconds, even when
timestamps are not checked. -/
theorem C53_defined_counterexample : ¬ C53_defined_claim := by
  intro h
  have := h { valTs := false } [.arrive ⟨true, some 1, some 9223372036855, none, some [1]⟩]
  revert this; decide

/-! ### C54 -/

/-- C54, timestamps: in a sequential history, a command Interest accepted after another acceptance under
its key was recorded, less than the record lifetime ago, and while fewer other keys than the limit were
recorded, has a later timestamp. -/
theorem C54_increasing (o : COpts) (now0 t0 : Nat) (ops : List (Op (Cmd K)))
    (hs : Sequential (command o) (init [] now0 t0) ops) (pre post : List (Obs (Cmd K))) (j : Nat) (x : Cmd K) (now t : Nat)
    (hlog : (run (command o) (init [] now0 t0) ops).log = pre ++ .accepted j x now t :: post)
    (a b : List (Cmd K × Nat)) (y : Cmd K × Nat) (hrec : recordings pre = a ++ y :: b) (hk : y.1.key = x.key)
    (hkept : o.maxRec < 0 ∨ FewOthers Cmd.key o.maxRec y.1.key b) (hlife : (t : Int) < y.2 + o.lifetime) :
    ∃ m m', y.1.time = some m ∧ x.time = some m' ∧ instant m < instant m' :=
  (command_seq o now0 t0 ops hs pre j x now t post hlog).2 a y b hrec hk hkept hlife

/-- C54, whatever the schedule: the timestamp of every accepted command Interest, the first of its key
and all others, is within the grace period of the system clock when it arrived. -/
theorem C54_grace (o : COpts) (now0 t0 : Nat) (ops : List (Op (Cmd K))) (j : Nat) (x : Cmd K) (now t : Nat)
    (h : Obs.accepted j x now t ∈ (run (command o) (init [] now0 t0) ops).log) :
    ∃ k m, x.key = some k ∧ x.time = some m ∧ ((now : Int) - instant m * 1000000).natAbs ≤ o.grace :=
  (command_any o now0 t0 ops).2 j x now t h

/-- C54, whatever the schedule: an acceptance is recorded as soon as the callback of the user returns. -/
theorem C54_recorded (o : COpts) (now0 t0 : Nat) (ops : List (Op (Cmd K))) (id : Nat) (x : Cmd K)
    (now t : Nat) (k : K) (m : Nat) (hk : x.key = some k) (hm : x.time = some m)
    (hdef : int64 (instant m * 1000000) = true) :
    let s := run (command o) (init [] now0 t0) ops
    (run (command o) (init [] now0 t0) (ops ++ [.accept id])).log = s.log ++ [.accepted id x now t] →
    (run (command o) (init [] now0 t0) (ops ++ [.accept id, .record id])).log =
      s.log ++ [.accepted id x now t, .recorded id x s.steady] := by
  apply accept_record
  intro t r
  have hf : fromMs m = some (instant m * 1000000) := by
    have : fromMs m = if int64 (instant m * 1000000) then some (instant m * 1000000) else none := rfl
    rw [this, hdef, if_pos rfl]
  simp [command, cmdInsert, hk, hm, hf]

/-- C54, the other direction, whatever the schedule: a command Interest within the grace period with a
timestamp greater than all recorded ones of its key passes the check. -/
theorem C54_accepts (o : COpts) (now0 t0 : Nat) (ops : List (Op (Cmd K))) (x : Cmd K) (k : K) (m : Nat)
    (hk : x.key = some k) (hm : x.time = some m) (hdef : int64 (instant m * 1000000) = true) :
    let s := run (command o) (init [] now0 t0) ops
    ((s.now : Int) - instant m * 1000000).natAbs ≤ o.grace →
    (∀ e ∈ recordings s.log, e.1.key = some k → ∀ m', e.1.time = some m' → instant m' < instant m) →
    (run (command o) (init [] now0 t0) (ops ++ [.arrive x])).log = s.log ++ [.checked s.next x s.now s.steady] := by
  intro s hg hall
  have hI := (command_any o now0 t0 ops).1
  rw [run_snoc]
  have hs : s = run (command o) (init [] now0 t0) ops := rfl
  rw [← hs] at hI ⊢
  clear_value s
  have hf : fromMs m = some (instant m * 1000000) := by
    have : fromMs m = if int64 (instant m * 1000000) then some (instant m * 1000000) else none := rfl
    rw [this, hdef, if_pos rfl]
  have hc : cmdCheck o s.now s.steady s.recs x = (.pass, cleanup o s.steady s.recs) := by
    simp only [cmdCheck, hm, hf, hk]
    rw [if_neg (by omega)]
    cases hfd : (cleanup o s.steady s.recs).find? (fun r => r.key == k) with
    | none => rfl
    | some r =>
      have hr := (cleanup_sublist _ _ _).subset (List.mem_of_find?_eq_some hfd)
      have hrk := List.find?_some hfd
      simp at hrk
      obtain ⟨e, he, hek, m', hm', hrt⟩ := hI r hr
      have := hall e he (by rw [hek, hrk]) m' hm'
      simp only
      rw [if_neg (by rw [hrt]; omega)]
  simp [step, command, hc]

/-- C54, replays: when the record lifetime is more than twice the grace period, there is no limit on
the records and the system clock is not adjusted, the timestamp of an accepted command Interest differs
from those of all acceptances recorded under its key, however long ago. -/
theorem C54_no_replay (o : COpts) (hmax : o.maxRec < 0) (hlife : o.lifetime > 2 * o.grace) (now0 t0 : Nat)
    (ops : List (Op (Cmd K))) (hset : ∀ n, Op.setClock n ∉ ops)
    (hs : Sequential (command o) (init [] now0 t0) ops) (pre post : List (Obs (Cmd K))) (j : Nat) (x : Cmd K) (now t : Nat)
    (hlog : (run (command o) (init [] now0 t0) ops).log = pre ++ .accepted j x now t :: post)
    (y : Cmd K × Nat) (hy : y ∈ recordings pre) (hk : y.1.key = x.key) :
    y.1.time ≠ x.time := by
  intro heq
  obtain ⟨_, _, hacc, hrec⟩ := clock_run (command o) ([] : List (CRec K)) now0 t0
    (fun x now => ∃ m, x.time = some m ∧ ((now : Int) - instant m * 1000000).natAbs ≤ o.grace) (by
      intro now t r x r' hc
      obtain ⟨⟨_, m, _, hm, _, hg⟩, _⟩ := (invC_check (l := []) (t := t) (recs := []) (o := o) (now := now) (x := x)
        (recs' := []) (v := .pass) ⟨by simp, by simp, by simp⟩ (by
          simp only [command, cmdCheck] at hc ⊢
          cases hm : x.time with
          | none => simp [hm] at hc
          | some m =>
            simp only [hm] at hc ⊢
            cases hf : fromMs m with
            | none => simp [hf] at hc
            | some v =>
              cases hk : x.key with
              | none => simp [hf, hk] at hc
              | some k =>
                simp only [hf, hk, cleanup, List.find?_nil] at hc ⊢
                split
                · rename_i h; rw [if_pos h] at hc; simp at hc
                · rfl)).2 rfl
      exact ⟨m, hm, hg⟩) ops hset
  rw [hlog] at hacc hrec
  obtain ⟨hx1, m, hm, hg⟩ := hacc j x now t (by simp)
  obtain ⟨ny, sy, hle, hy1, m', hm', hg'⟩ := hrec y (by rw [recordings_append]; simp [hy])
  rw [heq, hm] at hm'
  cases hm'
  obtain ⟨a, b, hab⟩ := List.append_of_mem hy
  obtain ⟨m1, m2, h1, h2, h3⟩ := C54_increasing o now0 t0 ops hs pre post j x now t hlog a b y hab hk (Or.inl hmax)
    (by omega)
  rw [heq, h2] at h1
  cases h1
  omega

def exC (k m : Nat) : Cmd Nat := ⟨some k, some m⟩

def exCommand : List (Op (Cmd Nat)) :=
  [.arrive (exC 1 1000), .accept 0, .record 0, .advance 1000000000,
   .arrive (exC 2 1500), .accept 1, .record 1, .advance 1000000000,
   .arrive (exC 1 2500), .accept 2, .record 2, .advance 1000000000,
   .arrive (exC 1 2500)]

/-- The hypotheses of C54_increasing and C54_no_replay are met. -/
example : ∃ m m', (exC 1 1000).time = some m ∧ (exC 1 2500).time = some m' ∧ instant m < instant m' :=
  C54_increasing { maxRec := 2 } 1000000000 0 exCommand (sequential_of (by decide))
    [.checked 0 (exC 1 1000) 1000000000 0, .accepted 0 (exC 1 1000) 1000000000 0, .recorded 0 (exC 1 1000) 0,
     .checked 1 (exC 2 1500) 2000000000 1000000000, .accepted 1 (exC 2 1500) 2000000000 1000000000,
     .recorded 1 (exC 2 1500) 1000000000, .checked 2 (exC 1 2500) 3000000000 2000000000]
    [.recorded 2 (exC 1 2500) 2000000000, .rejected (exC 1 2500)] 2 (exC 1 2500) 3000000000 2000000000
    (by decide) [] [(exC 2 1500, 1000000000)] (exC 1 1000, 0) (by decide) rfl
    (Or.inr ⟨[2], by decide, by decide⟩) (by decide)

example : ({ maxRec := -1 } : COpts).lifetime > 2 * ({ maxRec := -1 } : COpts).grace ∧
    ∀ n, Op.setClock n ∉ exCommand := by
  refine ⟨by decide, ?_⟩
  simp [exCommand]

/-- The claim for any schedule. -/
def C54_overlap_claim : Prop :=
  ∀ (o : COpts) (ops : List (Op (Cmd Nat))) (i j : Nat) (y x : Cmd Nat) (ny ty nx tx : Nat) (a b c : List (Obs (Cmd Nat))),
    o.maxRec < 0 → (run (command o) (init [] 0 0) ops).log =
      a ++ .accepted i y ny ty :: (b ++ .accepted j x nx tx :: c) → (tx : Int) < ty + o.lifetime → y.key = x.key →
    ∃ m m', y.time = some m ∧ x.time = some m' ∧ instant m < instant m'

/-- Overlapping validations accept the same command Interest twice. -/
theorem C54_overlap_counterexample : ¬ C54_overlap_claim := by
  intro h
  have := h { maxRec := -1 } [.arrive (exC 1 5), .arrive (exC 1 5), .accept 0, .record 0, .accept 1, .record 1]
    0 1 (exC 1 5) (exC 1 5) 0 0 0 0 [.checked 0 (exC 1 5) 0 0, .checked 1 (exC 1 5) 0 0]
    [.recorded 0 (exC 1 5) 0] [.recorded 1 (exC 1 5) 0] (by decide) (by decide) (by decide) rfl
  obtain ⟨m, m', h1, h2, h3⟩ := this
  cases h1; cases h2
  omega

/-- The claim that every command Interest is handled within defined behaviour. -/
def C54_defined_claim : Prop :=
  ∀ (o : COpts) (ops : List (Op (Cmd Nat))), Obs.undefined ∉ (run (command o) (init [] 0 0) ops).log

/-- A timestamp near the end of the 64-bit range overflows the comparison with the grace period. -/
theorem C54_defined_counterexample : ¬ C54_defined_claim := by
  intro h
  have := h {} [.arrive (exC 1 9223372036855)]
  revert this; decide

/-! ### C58 -/

/-- Timestamps made so far are at most the last used one. -/
theorem fresh_gt (s : Signer) (now : Int) (h : 0 ≤ s.ts) :
    Int.tdiv s.ts 1000000 < Int.tdiv (freshTimestamp s now).1 1000000 ∧
      (freshTimestamp s now).2.ts = (freshTimestamp s now).1 ∧ 0 ≤ (freshTimestamp s now).2.ts := by
  simp only [freshTimestamp]
  have key : ∀ x y : Int, 0 ≤ x → x + 1000000 ≤ y → Int.tdiv x 1000000 < Int.tdiv y 1000000 := by
    intro x y hx hxy
    rw [Int.tdiv_eq_ediv_of_nonneg hx, Int.tdiv_eq_ediv_of_nonneg (by omega)]
    omega
  split
  · rename_i hg
    have hd : s.ts + 1000000 ≤ now := by
      have h0 : 0 ≤ now - s.ts := by
        apply Decidable.byContradiction
        intro hneg
        have : Int.tdiv (now - s.ts) 1000000 ≤ 0 := by
          have h1 : now - s.ts = -(s.ts - now) := by omega
          rw [h1, Int.neg_tdiv, Int.tdiv_eq_ediv_of_nonneg (by omega)]
          omega
        omega
      rw [Int.tdiv_eq_ediv_of_nonneg h0] at hg
      omega
    exact ⟨key _ _ h hd, rfl, by show 0 ≤ now; omega⟩
  · exact ⟨key _ _ h (Int.le_refl _), rfl, by show 0 ≤ s.ts + 1000000; omega⟩

theorem sign_cases (s : Signer) (now : Int) (q : Sign) (h : 0 ≤ s.ts) :
    ∃ out s', sign s now q = (out, s') ∧ s.ts ≤ s'.ts ∧ Int.tdiv s.ts 1000000 ≤ Int.tdiv s'.ts 1000000 ∧
      ∀ x, out = some x → ∀ m, x.timeMs = some m → Int.tdiv s.ts 1000000 < m ∧ m = Int.tdiv s'.ts 1000000 := by
  obtain ⟨h1, h2, h3⟩ := fresh_gt s now h
  have hle : s.ts ≤ (freshTimestamp s now).2.ts := by
    apply Decidable.byContradiction
    intro hn
    have : Int.tdiv (freshTimestamp s now).1 1000000 ≤ Int.tdiv s.ts 1000000 := by
      rw [← h2, Int.tdiv_eq_ediv_of_nonneg h3, Int.tdiv_eq_ediv_of_nonneg h]
      omega
    omega
  cases q with
  | command =>
    refine ⟨_, _, rfl, hle, by rw [h2]; omega, ?_⟩
    intro x hx m hm
    simp at hx
    subst hx
    simp at hm
    subst hm
    exact ⟨h1, by rw [h2]⟩
  | signed wn wt ws =>
    simp only [sign]
    split
    · exact ⟨none, s, rfl, Int.le_refl _, Int.le_refl _, by simp⟩
    · cases wt <;> cases ws <;> simp only [Bool.false_eq_true, if_false, if_true]
      · exact ⟨_, _, rfl, Int.le_refl _, Int.le_refl _, by rintro x hx m hm; simp at hx; subst hx; simp at hm⟩
      · exact ⟨_, _, rfl, Int.le_refl _, Int.le_refl _, by rintro x hx m hm; simp at hx; subst hx; simp at hm⟩
      · refine ⟨_, _, rfl, hle, by rw [h2]; omega, ?_⟩
        intro x hx m hm
        simp at hx
        subst hx
        simp at hm
        subst hm
        exact ⟨h1, by rw [h2]⟩
      · refine ⟨_, _, rfl, hle, by simp only [nextSeqNum]; rw [h2]; omega, ?_⟩
        intro x hx m hm
        simp at hx
        subst hx
        simp at hm
        subst hm
        exact ⟨h1, by simp only [nextSeqNum]; rw [h2]⟩

theorem signAll_inc : ∀ (l : List (Int × Sign)) (s : Signer), 0 ≤ s.ts →
    ((signAll s l).filterMap Signed.timeMs).Pairwise (· < ·) ∧
    ∀ m ∈ (signAll s l).filterMap Signed.timeMs, Int.tdiv s.ts 1000000 < m
  | [], s, _ => by simp [signAll]
  | (now, q) :: rest, s, h => by
    obtain ⟨out, s', he, h1, h2, h3⟩ := sign_cases s now q h
    obtain ⟨ih1, ih2⟩ := signAll_inc rest s' (by omega)
    simp only [signAll, he]
    cases out with
    | none => exact ⟨ih1, fun m hm => by have := ih2 m hm; omega⟩
    | some x =>
      simp only
      cases hx : x.timeMs with
      | none =>
        rw [List.filterMap_cons_none hx]
        exact ⟨ih1, fun m hm => by have := ih2 m hm; omega⟩
      | some m0 =>
        rw [List.filterMap_cons_some hx]
        obtain ⟨g1, g2⟩ := h3 x rfl m0 hx
        refine ⟨List.pairwise_cons.mpr ⟨fun m hm => by have := ih2 m hm; omega, ih1⟩, ?_⟩
        intro m hm
        simp at hm
        rcases hm with rfl | hm
        · exact g1
        · obtain ⟨a, ha, ham⟩ := hm
          have := ih2 m (List.mem_filterMap.mpr ⟨a, ha, ham⟩)
          omega

/-- C58: the millisecond timestamps that one signer puts into signed and command Interests strictly
increase, whatever the system clock reads each time. -/
theorem C58_increasing (l : List (Int × Sign)) :
    ((signAll {} l).filterMap Signed.timeMs).Pairwise (· < ·) :=
  (signAll_inc l {} (by decide)).1

/-- Every signing asked for a time has one, not behind the clock. -/
theorem C58_present (s : Signer) (h : 0 ≤ s.ts) (now : Int) (hn : 0 ≤ now) (wn ws : Bool) :
    (∃ x s' m, sign s now (.signed wn true ws) = (some x, s') ∧ x.timeMs = some m ∧ Int.tdiv now 1000000 ≤ m) ∧
    (∃ x s' m, sign s now .command = (some x, s') ∧ x.timeMs = some m ∧ Int.tdiv now 1000000 ≤ m) := by
  have key : Int.tdiv now 1000000 ≤ Int.tdiv (freshTimestamp s now).1 1000000 := by
    simp only [freshTimestamp]
    split
    · exact Int.le_refl _
    · rename_i hg
      show Int.tdiv now 1000000 ≤ Int.tdiv (s.ts + 1000000) 1000000
      rw [Int.tdiv_eq_ediv_of_nonneg hn, Int.tdiv_eq_ediv_of_nonneg (by omega)]
      have : now < s.ts + 1000000 := by
        apply Decidable.byContradiction
        intro hc
        rw [Int.tdiv_eq_ediv_of_nonneg (by omega)] at hg
        omega
      omega
  refine ⟨?_, ⟨_, _, _, rfl, rfl, key⟩⟩
  cases wn <;> cases ws <;> exact ⟨_, _, _, rfl, rfl, key⟩

theorem seqnums_from : ∀ (l : List (Int × Sign)) (s : Signer) (n : Nat), (s.seq + 1) % 2 ^ 64 = n →
    n + ((signAll s l).filterMap Signed.seq).length ≤ 2 ^ 64 →
    (signAll s l).filterMap Signed.seq = List.range' n ((signAll s l).filterMap Signed.seq).length
  | [], s, n, _, _ => by simp [signAll]
  | (now, q) :: rest, s, n, h, hlen => by
    have skip : ∀ out s', sign s now q = (out, s') → s'.seq = s.seq → (∀ x, out = some x → x.seq = none) →
        (signAll s ((now, q) :: rest)).filterMap Signed.seq = (signAll s' rest).filterMap Signed.seq := by
      intro out s' he _ hx
      simp only [signAll, he]
      cases out with
      | none => rfl
      | some x => simp only; rw [List.filterMap_cons_none (hx x rfl)]
    have done : ∀ out s', sign s now q = (out, s') → s'.seq = s.seq → (∀ x, out = some x → x.seq = none) →
        (signAll s ((now, q) :: rest)).filterMap Signed.seq =
          List.range' n ((signAll s ((now, q) :: rest)).filterMap Signed.seq).length := by
      intro out s' he hseq hx
      have e := skip out s' he hseq hx
      rw [e] at hlen ⊢
      exact seqnums_from rest s' n (by rw [hseq]; exact h) hlen
    have hts : ∀ now, (freshTimestamp s now).2.seq = s.seq := by
      intro now; simp only [freshTimestamp]; split <;> rfl
    have one : ∀ x s', sign s now q = (some x, s') → x.seq = some n → s'.seq = n →
        (signAll s ((now, q) :: rest)).filterMap Signed.seq =
          List.range' n ((signAll s ((now, q) :: rest)).filterMap Signed.seq).length := by
      intro x s' he hx hs'
      have e : (signAll s ((now, q) :: rest)).filterMap Signed.seq = n :: (signAll s' rest).filterMap Signed.seq := by
        simp only [signAll, he]
        rw [List.filterMap_cons_some hx]
      rw [e] at hlen ⊢
      simp only [List.length_cons, List.range'_succ, List.cons.injEq, true_and]
      by_cases h0 : ((signAll s' rest).filterMap Signed.seq).length = 0
      · rw [h0]; simpa using h0
      · simp only [List.length_cons] at hlen
        exact seqnums_from rest s' (n + 1) (by rw [hs']; omega) (by omega)
    cases q with
    | command => exact done _ _ rfl (hts now) (by rintro x hx; simp at hx; subst hx; rfl)
    | signed wn wt ws =>
      cases ws with
      | false =>
        cases wt with
        | false =>
          cases wn with
          | false => exact done none s rfl rfl (by simp)
          | true => exact done _ s rfl rfl (by rintro x hx; simp at hx; subst hx; rfl)
        | true =>
          exact done (some ⟨some (Int.tdiv (freshTimestamp s now).1 1000000), none⟩) (freshTimestamp s now).2
            (by cases wn <;> rfl) (hts now) (by rintro x hx; simp at hx; subst hx; rfl)
      | true =>
        cases wt with
        | false =>
          exact one ⟨none, some ((s.seq + 1) % 2 ^ 64)⟩ { s with seq := (s.seq + 1) % 2 ^ 64 } (by cases wn <;> rfl)
            (by simp [h]) h
        | true =>
          exact one ⟨some (Int.tdiv (freshTimestamp s now).1 1000000), some (((freshTimestamp s now).2.seq + 1) % 2 ^ 64)⟩
            { (freshTimestamp s now).2 with seq := ((freshTimestamp s now).2.seq + 1) % 2 ^ 64 } (by cases wn <;> rfl)
            (by rw [hts]; simp [h]) (by rw [hts]; exact h)

/-- The sequence numbers of one signer are 0, 1, 2, ... (the first 2^64 of them). -/
theorem C58_seqnums (l : List (Int × Sign)) (h : ((signAll {} l).filterMap Signed.seq).length ≤ 2 ^ 64) :
    (signAll {} l).filterMap Signed.seq = List.range ((signAll {} l).filterMap Signed.seq).length := by
  rw [List.range_eq_range']
  exact seqnums_from l {} 0 (by decide) (by omega)

/-- A clock that stands still and goes back. -/
example : signAll {} [(5000000, .signed true true true), (5000000, .command), (1000000, .signed false true false),
    (0, .signed false false true), (0, .signed false false false), (9000000, .command)] =
    [⟨some 5, some 0⟩, ⟨some 6, none⟩, ⟨some 7, none⟩, ⟨none, some 1⟩, ⟨some 9, none⟩] := by decide

end Ndn.Replay
