import Verif.Replay.Props
import Verif.Replay.SignerSpec

/-
C144: `InterestSigner` composed with the policies against replays.
-/
namespace Ndn.Replay
open Ndn.Replay.Spec

section
variable {X R : Type}

/-- What is recorded or pending has arrived. -/
theorem arrived (P : Policy X R) (e : R) (now0 t0 : Nat) (ops : List (Op X)) :
    (∀ p ∈ (run P (init e now0 t0) ops).pend, p.itm ∈ arrivals ops) ∧
    (∀ r ∈ recordings (run P (init e now0 t0) ops).log, r.1 ∈ arrivals ops) := by
  induction ops using snocInd with
  | nil => exact ⟨by simp [run, init], by simp [run, init, recordings]⟩
  | snoc ops op ih =>
    obtain ⟨ih1, ih2⟩ := ih
    rw [run_snoc]
    generalize run P (init e now0 t0) ops = s at ih1 ih2
    have hm : ∀ x, x ∈ arrivals ops → x ∈ arrivals (ops ++ [op]) := by
      intro x hx; simp only [arrivals, List.filterMap_append, List.mem_append]; exact Or.inl hx
    have h1 : ∀ p ∈ s.pend, p.itm ∈ arrivals (ops ++ [op]) := fun p hp => hm _ (ih1 p hp)
    have h2 : ∀ r ∈ recordings s.log, r.1 ∈ arrivals (ops ++ [op]) := fun r hr => hm _ (ih2 r hr)
    have none_more : ∀ ob : Obs X, (∀ i x t, ob ≠ .recorded i x t) →
        ∀ r ∈ recordings (s.log ++ [ob]), r.1 ∈ arrivals (ops ++ [op]) := by
      intro ob hob r hr
      rw [recordings_append] at hr
      have : recordings [ob] = [] := by
        cases ob <;> first | rfl | exact absurd rfl (hob _ _ _)
      rw [this, List.append_nil] at hr
      exact h2 r hr
    cases op with
    | arrive x =>
      have hx : x ∈ arrivals (ops ++ [.arrive x]) := by simp [arrivals]
      simp only [step]
      split
      · refine ⟨?_, none_more _ (by simp)⟩
        intro p hp
        simp only [List.mem_append, List.mem_singleton] at hp
        rcases hp with hp | rfl
        · exact h1 p hp
        · exact hx
      · exact ⟨h1, none_more _ (by simp)⟩
      · exact ⟨h1, none_more _ (by simp)⟩
    | accept id =>
      simp only [step]
      split
      · exact ⟨h1, h2⟩
      · refine ⟨?_, none_more _ (by simp)⟩
        intro p hp
        obtain ⟨q, hq, he⟩ := List.mem_map.mp hp
        split at he
        · rw [← he]; exact h1 q hq
        · rw [← he]; exact h1 q hq
    | record id =>
      simp only [step]
      split
      · exact ⟨h1, h2⟩
      · rename_i p hp
        have hpm := List.mem_of_find?_eq_some hp
        split
        · refine ⟨fun q hq => h1 q (mem_dropPend hq), ?_⟩
          intro r hr
          rw [recordings_append, List.mem_append] at hr
          rcases hr with hr | hr
          · exact h2 r hr
          · simp only [recordings, List.filterMap_cons, List.filterMap_nil, List.mem_singleton] at hr
            rw [hr]; exact h1 p hpm
        · exact ⟨fun q hq => h1 q (mem_dropPend hq), h2⟩
    | fail id => exact ⟨fun q hq => h1 q (mem_dropPend hq), h2⟩
    | throw id => exact ⟨fun q hq => h1 q (mem_dropPend hq), h2⟩
    | setClock n => exact ⟨h1, h2⟩
    | advance dt => exact ⟨h1, h2⟩

theorem arrivals_split (pre post : List (Op X)) (x : X) :
    arrivals (pre ++ .arrive x :: post) = arrivals pre ++ x :: arrivals post := by
  simp [arrivals]

/-- A rejection or undefined behaviour in the log comes from an arrival that does not pass. -/
theorem refused_of (P : Policy X R) (e : R) (now0 t0 : Nat) (ops : List (Op X)) (x : X)
    (h : Obs.rejected x ∈ (run P (init e now0 t0) ops).log) :
    ∃ pre post, ops = pre ++ .arrive x :: post ∧
      (run P (init e now0 t0) (pre ++ [.arrive x])).log = (run P (init e now0 t0) pre).log ++ [.rejected x] := by
  induction ops using snocInd with
  | nil => simp [run, init] at h
  | snoc ops op ih =>
    rw [run_snoc] at h
    have old : Obs.rejected x ∈ (run P (init e now0 t0) ops).log →
        ∃ pre post, ops ++ [op] = pre ++ .arrive x :: post ∧
          (run P (init e now0 t0) (pre ++ [.arrive x])).log = (run P (init e now0 t0) pre).log ++ [.rejected x] := by
      intro hm
      obtain ⟨pre, post, h1, h2⟩ := ih hm
      exact ⟨pre, post ++ [op], by rw [h1]; simp, h2⟩
    cases op with
    | arrive y =>
      generalize hs : run P (init e now0 t0) ops = s at h old
      have hstep : (run P (init e now0 t0) (ops ++ [.arrive y])) = step P s (.arrive y) := by
        rw [run_snoc, hs]
      simp only [step] at h hstep
      split at h
      · simp only [List.mem_append, List.mem_singleton, reduceCtorEq, or_false] at h
        exact old h
      · rename_i recs hc
        simp only [List.mem_append, List.mem_singleton, Obs.rejected.injEq] at h
        rcases h with h | rfl
        · exact old h
        · refine ⟨ops, [], rfl, ?_⟩
          rw [hstep, hs, hc]
      · simp only [List.mem_append, List.mem_singleton, reduceCtorEq, or_false] at h
        exact old h
    | accept id =>
      simp only [step] at h
      split at h
      · exact old h
      · simp only [List.mem_append, List.mem_singleton, reduceCtorEq, or_false] at h
        exact old h
    | record id =>
      simp only [step] at h
      split at h
      · exact old h
      · split at h
        · simp only [List.mem_append, List.mem_singleton, reduceCtorEq, or_false] at h
          exact old h
        · exact old h
    | fail id => exact old h
    | throw id => exact old h
    | setClock n => exact old h
    | advance dt => exact old h

end

theorem signAll_elems : ∀ (l : List (Int × Sign)) (s : Signer) (x : Signed), x ∈ signAll s l →
    ∃ r ∈ l, (Timed r.2 → x.timeMs ≠ none) ∧
      ((∃ wn wt, r.2 = .signed wn wt true) → x.seq ≠ none)
  | [], s, x, h => by simp [signAll] at h
  | (now, q) :: rest, s, x, h => by
    have more : ∀ s', x ∈ signAll s' rest → ∃ r ∈ (now, q) :: rest, (Timed r.2 → x.timeMs ≠ none) ∧
        ((∃ wn wt, r.2 = .signed wn wt true) → x.seq ≠ none) := by
      intro s' hx
      obtain ⟨r, hr, h1⟩ := signAll_elems rest s' x hx
      exact ⟨r, List.mem_cons_of_mem _ hr, h1⟩
    simp only [signAll] at h
    cases hq : sign s now q with
    | mk out s' =>
      rw [hq] at h
      cases out with
      | none => exact more s' h
      | some y =>
        simp only [List.mem_cons] at h
        rcases h with rfl | h
        · refine ⟨(now, q), List.mem_cons_self .., ?_⟩
          cases q with
          | command =>
            simp only [sign, Prod.mk.injEq, Option.some.injEq] at hq
            rw [← hq.1]
            exact ⟨by simp, by rintro ⟨_, _, h⟩; cases h⟩
          | signed wn wt ws =>
            simp only [sign] at hq
            split at hq
            · simp at hq
            · simp only [Prod.mk.injEq, Option.some.injEq] at hq
              rw [← hq.1]
              refine ⟨?_, ?_⟩
              · intro ht
                simp only [Timed] at ht
                simp [ht]
              · rintro ⟨a, b, h⟩
                cases h
                simp
        · exact more s' h

/-- The sequence numbers of one signer increase. -/
theorem seq_inc (reqs : List (Int × Sign)) (h : (signAll {} reqs).length ≤ 2 ^ 64) :
    ((signAll {} reqs).filterMap Signed.seq).Pairwise (· < ·) := by
  rw [C58_seqnums reqs (Nat.le_trans (List.length_filterMap_le ..) h)]
  exact List.pairwise_lt_range

section
variable {K : Type} [DecidableEq K]

/-- C144, signed Interests: when the Interests that arrive under a key are some of those that one signer
made, in that order, and each is within the grace period on arrival, every one of them passes the
check of the policy, whatever arrives under other keys, whatever fails and however validations
overlap. -/
theorem C144_signed (o : Opts) (reqs : List (Int × Sign)) (hw : ∀ r ∈ reqs, Wants o r.2)
    (hlen : (signAll {} reqs).length ≤ 2 ^ 64) (k : K) (now0 t0 : Nat) (ops : List (Op (Itm K)))
    (hd : Delivered o (signAll {} reqs) k now0 t0 ops)
    (pre post : List (Op (Itm K))) (x : Itm K) (ho : ops = pre ++ .arrive x :: post) (hk : x.key = some k) :
    let s := run (signed o) (init [] now0 t0) pre
    (run (signed o) (init [] now0 t0) (pre ++ [.arrive x])).log = s.log ++ [.checked s.next x s.now s.steady] := by
  intro s
  have hu : under Itm.key k ops = under Itm.key k pre ++ x :: under Itm.key k post := by
    subst ho
    simp only [under, arrivals_split, List.filter_append, List.filter_cons, hk, beq_self_eq_true, if_true]
  have hsub := hd.some_of
  rw [hu, List.map_append, List.map_cons] at hsub
  have hmem : shown x ∈ signAll {} reqs := hsub.subset (by simp)
  obtain ⟨r, hr, e1, e2⟩ := signAll_elems reqs {} _ hmem
  have hwr := hw r hr
  have before : ∀ e ∈ recordings s.log, e.1.key = some k → e.1 ∈ under Itm.key k pre := by
    intro e he hek
    have := (arrived (signed o) [] now0 t0 pre).2 e he
    exact List.mem_filter.mpr ⟨this, by simp [hek]⟩
  have hinst : ∀ m : Nat, m * 1000000 < 2 ^ 63 → instant m = m ∧ int64 (instant m * 1000000) = true := by
    intro m hm
    have h1 : instant m = m := by simp only [instant]; rw [if_pos (by omega)]
    refine ⟨h1, ?_⟩
    rw [h1]
    simp only [int64, Bool.and_eq_true, decide_eq_true_eq]
    omega
  have htimes : ∀ e ∈ under Itm.key k pre, ∀ m' m, e.time = some m' → x.time = some m → m' < m := by
    intro e he m' m hm' hm
    have hp := (C58_increasing reqs).sublist (hsub.filterMap Signed.timeMs)
    rw [List.filterMap_append, List.filterMap_cons_some (b := (m : Int)) (by simp [shown, hm])] at hp
    have := (List.pairwise_append.mp hp).2.2 (m' : Int)
      (List.mem_filterMap.mpr ⟨shown e, List.mem_map_of_mem he, by simp [shown, hm']⟩) (m : Int)
      (List.mem_cons_self ..)
    omega
  have hseqs : ∀ e ∈ under Itm.key k pre, ∀ n' n, e.seq = some n' → x.seq = some n → n' < n := by
    intro e he n' n hn' hn
    have hp := (seq_inc reqs hlen).sublist (hsub.filterMap Signed.seq)
    rw [List.filterMap_append, List.filterMap_cons_some (b := n) (by simp [shown, hn])] at hp
    exact (List.pairwise_append.mp hp).2.2 n'
      (List.mem_filterMap.mpr ⟨shown e, List.mem_map_of_mem he, by simp [shown, hn']⟩) n (List.mem_cons_self ..)
  have hxu : x ∈ under Itm.key k ops := by rw [hu]; simp
  refine C53_accepts o now0 t0 pre x k hk ?_ ?_ ?_ ?_
  · intro m hm
    exact (hinst m (hd.timely pre x post m ho hk hm).2.1).2
  · intro hv
    have ht : Timed r.2 := by
      cases hq : r.2 with
      | command => rw [hq] at hwr; exact hwr.elim
      | signed wn wt ws => rw [hq] at hwr; exact hwr.1 hv
    have := e1 ht
    cases hm : x.time with
    | none => simp [shown, hm] at this
    | some m =>
      obtain ⟨t1, t2, t3⟩ := hd.timely pre x post m ho hk hm
      obtain ⟨i1, i2⟩ := hinst m t2
      refine ⟨m, rfl, ?_, ?_, ?_⟩
      · rw [i1]; have : ((m : Int) * 1000000) = ((m * 1000000 : Nat) : Int) := by omega
        rw [this]; exact t3
      · rw [i1]
        change (run (signed o) (init [] now0 t0) pre).now < _ at t1
        simp only [int64, Bool.and_eq_true, decide_eq_true_eq]
        show -2 ^ 63 ≤ ((run (signed o) (init [] now0 t0) pre).now : Int) - _ ∧
          ((run (signed o) (init [] now0 t0) pre).now : Int) - _ < 2 ^ 63
        omega
      · intro e he hek m' hm'
        have hb := before e he hek
        have hlt := htimes e.1 hb m' m hm' hm
        rw [i1]
        have : instant m' = m' := by simp only [instant]; rw [if_pos (by omega)]
        rw [this]; omega
  · intro hv
    have hs : ∃ wn wt, r.2 = .signed wn wt true := by
      cases hq : r.2 with
      | command => rw [hq] at hwr; exact hwr.elim
      | signed wn wt ws => rw [hq] at hwr; exact ⟨wn, wt, by rw [hwr.2 hv]⟩
    have := e2 hs
    cases hn : x.seq with
    | none => simp [shown, hn] at this
    | some n => exact ⟨n, rfl, fun e he hek n' hn' => hseqs e.1 (before e he hek) n' n hn' hn⟩
  · intro hv
    obtain ⟨hn1, hn2⟩ := hd.nonces hv
    cases hn : x.nonce with
    | none => exact absurd hn (hn1 x hxu)
    | some n =>
      refine ⟨n, rfl, ?_⟩
      intro e he hek hen
      rw [hu, List.map_append, List.map_cons] at hn2
      exact (List.nodup_append.mp hn2).2.2 _ (List.mem_map_of_mem (before e he hek)) _ (List.mem_cons_self ..)
        (by rw [hen, hn])

/-- C144, the effect: none of the signer's Interests is refused by the policy. -/
theorem C144_signed_never_refused (o : Opts) (reqs : List (Int × Sign)) (hw : ∀ r ∈ reqs, Wants o r.2)
    (hlen : (signAll {} reqs).length ≤ 2 ^ 64) (k : K) (now0 t0 : Nat) (ops : List (Op (Itm K)))
    (hd : Delivered o (signAll {} reqs) k now0 t0 ops) (x : Itm K) (hk : x.key = some k) :
    Obs.rejected x ∉ (run (signed o) (init [] now0 t0) ops).log := by
  intro h
  obtain ⟨pre, post, h1, h2⟩ := refused_of _ _ _ _ _ _ h
  rw [C144_signed o reqs hw hlen k now0 t0 ops hd pre post x h1 hk] at h2
  simp at h2

/-- C144, command Interests: the same for the older policy. -/
theorem C144_command (o : COpts) (reqs : List (Int × Sign)) (hw : ∀ r ∈ reqs, Timed r.2) (k : K) (now0 t0 : Nat)
    (ops : List (Op (Cmd K))) (hd : DeliveredCmd o (signAll {} reqs) k now0 t0 ops)
    (pre post : List (Op (Cmd K))) (x : Cmd K) (ho : ops = pre ++ .arrive x :: post) (hk : x.key = some k) :
    let s := run (command o) (init [] now0 t0) pre
    (run (command o) (init [] now0 t0) (pre ++ [.arrive x])).log = s.log ++ [.checked s.next x s.now s.steady] := by
  intro s
  have hu : under Cmd.key k ops = under Cmd.key k pre ++ x :: under Cmd.key k post := by
    subst ho
    simp only [under, arrivals_split, List.filter_append, List.filter_cons, hk, beq_self_eq_true, if_true]
  have hsub := hd.some_of
  rw [hu, List.map_append, List.map_cons] at hsub
  have hmem : x.time.map Int.ofNat ∈ (signAll {} reqs).map Signed.timeMs := hsub.subset (by simp)
  obtain ⟨y, hy, hye⟩ := List.mem_map.mp hmem
  obtain ⟨r, hr, e1, _⟩ := signAll_elems reqs {} _ hy
  have hne := e1 (hw r hr)
  cases hm : x.time with
  | none => rw [hm] at hye; exact absurd hye hne
  | some m =>
    obtain ⟨t1, t2, t3⟩ := hd.timely pre x post m ho hk hm
    have i1 : instant m = m := by simp only [instant]; rw [if_pos (by omega)]
    refine C54_accepts o now0 t0 pre x k m hk hm ?_ ?_ ?_
    · rw [i1]; simp only [int64, Bool.and_eq_true, decide_eq_true_eq]; omega
    · rw [i1]; have : ((m : Int) * 1000000) = ((m * 1000000 : Nat) : Int) := by omega
      rw [this]; exact t3
    · intro e he hek m' hm'
      have hb : e.1 ∈ under Cmd.key k pre :=
        List.mem_filter.mpr ⟨(arrived (command o) [] now0 t0 pre).2 e he, by simp [hek]⟩
      have hp := hsub.filterMap id
      rw [List.filterMap_map] at hp
      have hp := (C58_increasing reqs).sublist hp
      rw [List.filterMap_append, List.filterMap_cons_some (b := (m : Int)) (by simp [hm])] at hp
      have := (List.pairwise_append.mp hp).2.2 (m' : Int)
        (List.mem_filterMap.mpr ⟨_, List.mem_map_of_mem hb, by simp [hm']⟩) (m : Int) (List.mem_cons_self ..)
      rw [i1]
      have : instant m' = m' := by simp only [instant]; rw [if_pos (by omega)]
      rw [this]; omega

/-- C144, the effect for command Interests. -/
theorem C144_command_never_refused (o : COpts) (reqs : List (Int × Sign)) (hw : ∀ r ∈ reqs, Timed r.2) (k : K)
    (now0 t0 : Nat) (ops : List (Op (Cmd K))) (hd : DeliveredCmd o (signAll {} reqs) k now0 t0 ops)
    (x : Cmd K) (hk : x.key = some k) :
    Obs.rejected x ∉ (run (command o) (init [] now0 t0) ops).log := by
  intro h
  obtain ⟨pre, post, h1, h2⟩ := refused_of _ _ _ _ _ _ h
  rw [C144_command o reqs hw k now0 t0 ops hd pre post x h1 hk] at h2
  simp at h2

end

theorem paced_from : ∀ (l : List (Int × Sign)) (s : Signer), 0 ≤ s.ts → Paced s.ts l →
    (∀ r ∈ l, Timed r.2) → (signAll s l).map Signed.timeMs = l.map (fun r => some (r.1 / 1000000))
  | [], _, _, _, _ => rfl
  | (now, q) :: rest, s, h0, hp, hw => by
    obtain ⟨h1, h2⟩ := hp
    have hf : freshTimestamp s now = (now, { s with ts := now }) := by
      simp only [freshTimestamp]
      rw [if_pos]
      rw [Int.tdiv_eq_ediv_of_nonneg (by omega)]
      omega
    have hd : Int.tdiv now 1000000 = now / 1000000 := Int.tdiv_eq_ediv_of_nonneg (by omega)
    have hq := hw (now, q) (List.mem_cons_self ..)
    have key : ∃ n s', sign s now q = (some ⟨some (now / 1000000), n⟩, s') ∧ s'.ts = now := by
      cases q with
      | command => exact ⟨none, { s with ts := now }, by simp only [sign, hf, hd], rfl⟩
      | signed wn wt ws =>
        simp only [Timed] at hq
        subst hq
        simp only [sign, hf, hd]
        cases ws
        · refine ⟨none, { s with ts := now }, ?_, rfl⟩
          simp
        · exact ⟨some _, (nextSeqNum { s with ts := now }).2, by simp; rfl, rfl⟩
    obtain ⟨n, s', he, hs'⟩ := key
    have ih := paced_from rest s' (by omega) (by rw [hs']; exact h2) (fun r hr => hw r (List.mem_cons_of_mem _ hr))
    simp only [signAll, he, List.map_cons, ih]

/-- C144, where the times come from: a signer that is used less often than once per millisecond, on a
clock that is not set back, puts the reading of the clock, in milliseconds, into every Interest; so the
grace period needs to cover the delay and the difference of the two clocks only. -/
theorem C144_paced (reqs : List (Int × Sign)) (hp : Paced 0 reqs) (hw : ∀ r ∈ reqs, Timed r.2) :
    (signAll {} reqs).map Signed.timeMs = reqs.map (fun r => some (r.1 / 1000000)) :=
  paced_from reqs {} (by decide) hp hw

/-! ### A concrete case -/

/-- Three signings, the second within the same millisecond as the first. -/
def exReqs : List (Int × Sign) :=
  [(5000000, .signed true true false), (5000001, .signed true true false), (9000000, .signed true true false)]

def exS (ms : Nat) (nonce : UInt8) : Itm Nat := ⟨true, some 1, some ms, none, some [nonce]⟩

/-- The first Interest arrives, the second is lost, an Interest of another key arrives and is not
accepted, the third Interest arrives before the validation of the first ends. -/
def exArrive : List (Op (Itm Nat)) :=
  [.advance 6000000, .arrive (exS 5 1), .arrive ⟨true, some 2, none, none, none⟩, .advance 4000000, .arrive (exS 9 3), .accept 0,
   .record 0, .accept 1, .record 1]

theorem exDelivered : Delivered {} (signAll {} exReqs) 1 0 0 exArrive where
  some_of := by
    have h : (under Itm.key 1 exArrive).map shown = [⟨some 5, none⟩, ⟨some 9, none⟩] := by decide
    have h' : signAll {} exReqs = [⟨some 5, none⟩, ⟨some 6, none⟩, ⟨some 9, none⟩] := by decide
    rw [h, h']
    exact .cons_cons _ (.cons _ (.cons_cons _ .slnil))
  v03 := by decide
  timely := by
    intro pre x post m ho hk hm
    have hpos : ∀ i, exArrive[i]? = some (.arrive x) → pre.length = i → Timely 120000000000
        (run (signed {}) (init [] 0 0) (exArrive.take i)).now m := by
      intro i hi _
      match i with
      | 0 => simp [exArrive] at hi
      | 1 => simp [exArrive] at hi; subst hi; cases hm; unfold Timely; decide
      | 2 => simp [exArrive] at hi; subst hi; simp at hk
      | 3 => simp [exArrive] at hi
      | 4 => simp [exArrive] at hi; subst hi; cases hm; unfold Timely; decide
      | 5 => simp [exArrive] at hi
      | 6 => simp [exArrive] at hi
      | 7 => simp [exArrive] at hi
      | 8 => simp [exArrive] at hi
      | n + 9 => simp [exArrive] at hi
    have h1 := hpos pre.length (by rw [ho]; simp) rfl
    rw [ho] at h1
    simpa using h1
  nonces := by intro _; decide

/-- The hypotheses of C144_signed are met. -/
example : (run (signed {}) (init [] 0 0) (exArrive.take 4 ++ [.arrive (exS 9 3)])).log =
    [.checked 0 (exS 5 1) 6000000 6000000, .rejected ⟨true, some 2, none, none, none⟩,
     .checked 1 (exS 9 3) 10000000 10000000] := by
  have h := C144_signed {} exReqs (by intro r hr; simp [exReqs] at hr; rcases hr with rfl | rfl | rfl <;> simp [Wants])
    (by decide) 1 0 0 exArrive exDelivered (exArrive.take 4) (exArrive.drop 5) (exS 9 3) rfl rfl
  rw [h]; decide

/-- And those of C144_command and C144_paced. -/
example : DeliveredCmd {} (signAll {} [(5000000, .command)]) (1 : Nat) 5000000 0 [.arrive ⟨some 1, some 5⟩] where
  some_of := by
    show List.Sublist [some (5 : Int)] [some 5]
    exact List.Sublist.refl _
  timely := by
    intro pre x post m ho hk hm
    cases pre with
    | nil => simp at ho; obtain ⟨rfl, _⟩ := ho; cases hm; unfold Timely; decide
    | cons a l => cases l <;> simp at ho

example : Paced 0 [(5000000, .command), (6000000, .signed true true true)] := by simp [Paced]

/-! ### Where the times are not those of the clock -/

/-- The claim without a condition on the use of the signer: an Interest that is validated at the moment
at which it is signed, on the same clock, passes the check. -/
def C144_clock_claim : Prop :=
  ∀ (reqs : List (Int × Sign)) (now : Nat) (x : Itm Nat),
    reqs.getLast? = some ((now : Int), .signed true true false) → (∀ r ∈ reqs, r.2 = .signed true true false) →
    (signAll {} reqs).getLast? = some (shown x) → x.v03 = true → x.key = some 1 → x.nonce = some [1] →
    Obs.rejected x ∉ (run (signed {}) (init [] now 0) [.arrive x]).log

/-- After the system clock was set back by more than the grace period, the Interests of a signer go on
carrying times after those it used before, and are refused until the clock has caught up. -/
theorem C144_clock_counterexample : ¬ C144_clock_claim := by
  intro h
  have := h [(200000000000, .signed true true false), (1000000, .signed true true false)] 1000000 (exS 200001 1) rfl
    (by simp) (by decide) rfl rfl rfl
  revert this; decide

/-- The claim for a clock that is never set back. -/
def C144_burst_claim : Prop :=
  ∀ (reqs : List (Int × Sign)) (now : Nat) (x : Itm Nat), (reqs.map Prod.fst).Pairwise (· ≤ ·) →
    reqs.getLast? = some ((now : Int), .signed true true false) → (∀ r ∈ reqs, r.2 = .signed true true false) →
    (signAll {} reqs).getLast? = some (shown x) → x.v03 = true → x.key = some 1 → x.nonce = some [1] →
    Obs.rejected x ∉ (run (signed {}) (init [] now 0) [.arrive x]).log

theorem burst (now : Int) : ∀ (n : Nat) (s : Signer), 0 ≤ s.ts → now ≤ s.ts →
    (signAll s (List.replicate (n + 1) (now, .signed true true false))).getLast? =
      some ⟨some (s.ts / 1000000 + n + 1), none⟩
  | n, s, h0, h1 => by
    have hf : freshTimestamp s now = (s.ts + 1000000, { s with ts := s.ts + 1000000 }) := by
      simp only [freshTimestamp]
      rw [if_neg]
      have : Int.tdiv (now - s.ts) 1000000 ≤ 0 := by
        have h1 : now - s.ts = -(s.ts - now) := by omega
        rw [h1, Int.neg_tdiv, Int.tdiv_eq_ediv_of_nonneg (by omega)]
        omega
      omega
    have hd : Int.tdiv (s.ts + 1000000) 1000000 = s.ts / 1000000 + 1 := by
      rw [Int.tdiv_eq_ediv_of_nonneg (by omega)]; omega
    have hs : sign s now (.signed true true false) =
        (some ⟨some (s.ts / 1000000 + 1), none⟩, { s with ts := s.ts + 1000000 }) := by
      simp [sign, hf, hd]
    rw [List.replicate_succ]
    simp only [signAll, hs]
    cases n with
    | zero => simp [signAll]
    | succ n =>
      have ih := burst now n { s with ts := s.ts + 1000000 } (by show 0 ≤ s.ts + 1000000; omega)
        (by show now ≤ s.ts + 1000000; omega)
      rw [List.getLast?_cons, ih]
      simp only [Option.getD_some, Option.some.injEq, Signed.mk.injEq, and_true]
      show (s.ts + 1000000) / 1000000 + (n : Int) + 1 = s.ts / 1000000 + ((n + 1 : Nat) : Int) + 1
      omega

/-- Each signing moves the signer's time by a millisecond at least: after more than 120000 signings in
one millisecond (or a burst that keeps ahead of the clock), the times are beyond the default grace
period, and the Interests are refused although the clock was never adjusted. -/
theorem C144_burst_counterexample : ¬ C144_burst_claim := by
  intro h
  have hl : (signAll {} ((0, .signed true true false) :: List.replicate 120001 ((0 : Int), Sign.signed true true false))).getLast? =
      some (shown (exS 120002 1)) := by
    rw [← List.replicate_succ]
    rw [burst 0 120001 {} (by decide) (by decide)]
    decide
  refine h ((0, .signed true true false) :: List.replicate 120001 (0, .signed true true false)) 0 (exS 120002 1) ?_ ?_ ?_ hl rfl rfl
    rfl (by decide)
  · rw [← List.replicate_succ, List.map_replicate]
    rw [List.pairwise_replicate]
    exact Or.inr (Int.le_refl _)
  · rw [← List.replicate_succ, List.getLast?_replicate]
    simp
  · rw [← List.replicate_succ]
    intro r hr
    rw [List.eq_of_mem_replicate hr]

end Ndn.Replay
