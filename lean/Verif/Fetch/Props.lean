import Verif.Fetch.Frame
/-
C39: what the segment fetcher signals is right in every execution.
C79: the segment fetcher does not hang.
-/
namespace Ndn.Fetch
open Spec

/-! ### C39 -/

/-- Whatever arrives, is lost, is nacked, times out and is validated, in whatever order, with or without
in-order delivery: every signal is right after the ones before it. In particular nothing follows
completion or error; a completed buffer is the concatenation of the contents of validated segments
0..FinalBlockId in order; the k-th content delivered in order is that of validated segment k. -/
theorem C39_signals (cfg : Cfg) (evs : List Ev) (he : ValidEvs evs) (hl : (run (start cfg) evs).log.length < 2 ^ 63) :
    Ok (run (start cfg) evs).log := (run_good (start_good cfg) he).1.ok hl

/-- Every packet signalled as received is one that arrived. -/
theorem C39_arrived (cfg : Cfg) (evs : List Ev) (d : Data) (h : Obs.received d ∈ (run (start cfg) evs).log) :
    ∃ i v w a b, Ev.data i d v w a b ∈ evs := by
  rcases run_obs (start cfg) evs (fun _ h => absurd h (List.not_mem_nil)) _ h rfl with h | ⟨e1, e, e2, h0, h1⟩
  · exact absurd h (List.not_mem_nil)
  · clear h; subst h0; rename _ => h
    cases e with
    | data i x v w a b =>
      rcases h with h | ⟨_, h⟩
      · injection h with h; subst h; exact ⟨i, v, w, a, b, by simp⟩
      · cases h
    | result v ok w a => obtain ⟨_, _, _, _, h⟩ := h; cases h
    | _ => exact False.elim h

/-- Every packet signalled as validated is one the validator accepted, at once or later. -/
theorem C39_accepted (cfg : Cfg) (evs : List Ev) (d : Data) (h : Obs.validated d ∈ (run (start cfg) evs).log) :
    (∃ i w a b, Ev.data i d (some true) w a b ∈ evs) ∨
    ∃ e1 vid node w a e2, evs = e1 ++ .result vid true w a :: e2 ∧ ⟨vid, node, d⟩ ∈ (run (start cfg) e1).validating := by
  rcases run_obs (start cfg) evs (fun _ h => absurd h (List.not_mem_nil)) _ h rfl with h | ⟨e1, e, e2, h0, h1⟩
  · exact absurd h (List.not_mem_nil)
  · clear h; subst h0; rename _ => h
    cases e with
    | data i x v w a b =>
      rcases h with h | ⟨hv, h⟩
      · cases h
      · injection h with h; subst h; subst hv; exact Or.inl ⟨i, w, a, b, by simp⟩
    | result v ok w a =>
      obtain ⟨hok, x, hx, hv, h⟩ := h
      injection h with h; subst h; subst hv; subst hok
      exact Or.inr ⟨e1, x.vid, x.node, w, a, e2, rfl, hx⟩
    | _ => exact False.elim h

theorem validated_arrived (cfg : Cfg) (evs : List Ev) (he : ValidEvs evs) (hl : (run (start cfg) evs).log.length < 2 ^ 63) (d : Data)
    (h : Obs.validated d ∈ (run (start cfg) evs).log) : ∃ i v w a b, Ev.data i d v w a b ∈ evs := by
  obtain ⟨pre, post, e⟩ := List.append_of_mem h
  have := (C39_signals cfg evs he hl pre _ post e).2
  exact C39_arrived cfg evs d (by rw [e]; exact List.mem_append_left _ this)

theorem delivered_length_le {log : List Obs} {N : Nat} (hok : Ok log) (hs : ∀ d k, Obs.validated d ∈ log → d.seg = some k → k ≤ N) :
    (delivered log).length ≤ N + 1 := by
  rcases List.eq_nil_or_concat log with rfl | ⟨l, o, rfl⟩ <;> (try rw [List.concat_eq_append] at *)
  · simp [delivered]
  · have ih : (delivered l).length ≤ N + 1 := by
      refine delivered_length_le (N := N) (ok_snoc.1 hok).1 (fun d k hd => hs d k (by simp [hd]))
    cases o with
    | inOrder c =>
      obtain ⟨_, d, hd, hk, _⟩ := (ok_snoc.1 hok).2
      have := hs d _ (by simp [hd]) hk
      rw [delivered_snoc_inOrder]
      simp only [List.length_append, List.length_singleton]
      omega
    | _ => simpa [delivered, List.filterMap_append] using ih
termination_by log.length

/-- The k-th content delivered in order is that of a validated segment k. -/
theorem delivered_hasSeg : ∀ {log : List Obs}, Ok log → ∀ (i : Nat) c, (delivered log)[i]? = some c → HasSeg log i c := by
  intro log
  generalize hn : log.length = n
  induction n generalizing log with
  | zero =>
    intro _ i c hi
    have : log = [] := List.length_eq_zero_iff.1 hn
    subst this; simp [delivered] at hi
  | succ n ih =>
    intro hk i c hi
    rcases List.eq_nil_or_concat log with rfl | ⟨l, o, rfl⟩ <;> (try rw [List.concat_eq_append] at *)
    · simp at hn
    · have hl' : l.length = n := by simpa using hn
      have i1 := ih hl' (ok_snoc.1 hk).1
      cases o with
      | inOrder x =>
        rw [delivered_snoc_inOrder] at hi
        by_cases hlt : i < (delivered l).length
        · rw [List.getElem?_append_left hlt] at hi
          exact hasSeg_mono (i1 i c hi)
        · rw [List.getElem?_append_right (by omega)] at hi
          have h0 : i - (delivered l).length = 0 := by
            rcases Nat.eq_zero_or_pos (i - (delivered l).length) with h | h
            · exact h
            · rw [List.getElem?_eq_none (by simp; omega)] at hi; simp at hi
          rw [h0] at hi
          have hx : x = c := by simpa using hi
          have hi' : i = (delivered l).length := by omega
          have := (ok_snoc.1 hk).2.2
          rw [hi', ← hx]
          exact hasSeg_mono this
      | _ =>
        refine hasSeg_mono (i1 i c ?_)
        simpa [delivered, List.filterMap_append] using hi

/-- In the in-order mode completion is signalled after exactly segments 0..N were delivered, if N is the
last segment of the object. -/
theorem C39_inOrder_all (cfg : Cfg) (evs : List Ev) (he : ValidEvs evs) (hl : (run (start cfg) evs).log.length < 2 ^ 63) (N : Nat)
    (hcons : ∀ e ∈ evs, Consistent N e) (pre post : List Obs) (h : (run (start cfg) evs).log = pre ++ .inOrderComplete :: post) :
    (delivered pre).length = N + 1 ∧ post = [] ∧
      ∀ (i : Nat) c, (delivered pre)[i]? = some c → HasSeg pre i c := by
  have hok := C39_signals cfg evs he hl
  have hA : ∀ d, Obs.validated d ∈ pre → ∃ i v w a b, Ev.data i d v w a b ∈ evs :=
    fun d hd => validated_arrived cfg evs he hl d (by rw [h]; simp [hd])
  have hokp : Ok pre := fun p o q e => hok p o (q ++ .inOrderComplete :: post) (by rw [h, e]; simp)
  refine ⟨?_, ?_, ?_⟩
  · obtain ⟨_, f, h1, h2⟩ := hok pre _ post h
    have hf : f = N := by
      unfold lastFinal at h1
      obtain ⟨o, ho, hof⟩ := List.mem_filterMap.1 (List.mem_of_getLast? h1)
      cases o with
      | validated d =>
        obtain ⟨i, v, w, a, b, hm⟩ := hA d ho
        refine (hcons _ hm).2 f ?_
        simp only [finalOf] at hof
        cases hd : d.final with
        | none => rw [hd] at hof; simp at hof
        | some x => rw [hd] at hof; simp at hof; rw [hof]
      | _ => simp [finalOf] at hof
    have := delivered_length_le (N := N) hokp (by
      intro d k hd hk
      obtain ⟨i, v, w, a, b, hm⟩ := hA d hd
      exact (hcons _ hm).1 k hk)
    omega
  · cases post with
    | nil => rfl
    | cons o post =>
      have := (hok (pre ++ [.inOrderComplete]) o post (by rw [h]; simp)).1 .inOrderComplete (by simp)
      simp [terminal] at this
  · exact delivered_hasSeg hokp

/-- `stop()` silences the fetcher. -/
theorem C39_stop (cfg : Cfg) (evs evs' : List Ev) : (run (start cfg) (evs ++ .stop :: evs')).log = (run (start cfg) evs).log := by
  have : run (start cfg) (evs ++ .stop :: evs') = run (step (run (start cfg) evs) .stop) evs' := by
    unfold run; rw [List.foldl_append]; rfl
  rw [this]
  exact (run_stopped _ _ (stop_stopped _)).2.trans (stop_log _)

/-- All segments are of one object, if no Interest is answered after it was cancelled. -/
theorem C39_object_partial (cfg : Cfg) (evs : List Ev) (he : ValidEvs evs) (hc : cfg.late = false) (x y : Data)
    (hx : Obs.validated x ∈ (run (start cfg) evs).log) (hy : Obs.validated y ∈ (run (start cfg) evs).log) : x.obj = y.obj :=
  (run_L (start_good cfg) (start_L cfg hc) he).2.1 x y hx hy

/-- Nothing undefined happens, if no Interest is answered after it was cancelled, the Interest given
does not end with a segment number, the validator answers at once and handlers do not stop the fetcher. -/
theorem C39_defined_partial (cfg : Cfg) (evs : List Ev) (he : ValidEvs evs) (hc : cfg.late = false) (hb : cfg.baseSeg = none)
    (hq : ∀ e ∈ evs, Calm e) : (run (start cfg) evs).ub = false :=
  (run_def (start_good cfg) (start_L cfg hc) (start_def cfg hb) he hq).ub

/-- A rejected packet ends the fetch with an error. -/
theorem C39_rejected (s : St) (hs : s.stopped = false) (v : Val) (hv : v ∈ s.validating) (w : Nat) (a : Bool) :
    (step s (.result v.vid false w a)).log = s.log ++ [.error 3] ∧ (step s (.result v.vid false w a)).stopped = true := by
  simp only [step, result]
  split
  · rename_i hn
    exact absurd (by simp) (List.find?_eq_none.1 hn v hv)
  · simp only [hs, Bool.false_eq_true, if_false]
    exact ⟨by unfold error; rw [stop_log], (error_fields _ _).2.2.2⟩

/-- A Nack for other reasons than duplicate or congestion ends the fetch with an error. -/
theorem C39_nacked (s : St) (hs : s.stopped = false) (l : Live) (hl : l ∈ s.live) (w : Nat) (a : Bool) :
    (step s (.nack l.iid false w a)).log = s.log ++ [.nacked, .error 4] ∧ (step s (.nack l.iid false w a)).stopped = true := by
  simp only [step, onNack]
  split
  · rename_i hn
    exact absurd (by simp) (List.find?_eq_none.1 hn l hl)
  · simp only [hs, Bool.false_eq_true, if_false]
    refine ⟨?_, (error_fields _ _).2.2.2⟩
    unfold error signal
    rw [stop_log]
    split
    · simp only [stop_log]; simp
    · simp

/-! Witnesses -/

def exCfg : Cfg := ⟨false, 10, none, 60000, false⟩

def exData (k : Nat) (f : Option Nat := none) (o : Nat := 7) : Data := ⟨o, some k, f.map some, [UInt8.ofNat (k + 10)]⟩

/-- Segment 0 arrives; 2 overtakes 1, which is lost once. -/
def exEvs : List Ev :=
  [.data 0 (exData 0) (some true) 2 false false, .data 3 (exData 2 (some 2)) (some true) 2 false false,
   .advance 1000, .timeout 2 1 false, .data 5 (exData 1) (some true) 2 false false]

theorem exEvs_valid : ValidEvs exEvs := by
  intro i d v w a b h
  simp only [exEvs, List.mem_cons, List.not_mem_nil, or_false] at h
  rcases h with h | h | h | h | h <;> injection h <;> subst_vars <;> simp [exData]

theorem exEvs_calm : ∀ e ∈ exEvs, Calm e := by
  intro e h
  simp only [exEvs, List.mem_cons, List.not_mem_nil, or_false] at h
  rcases h with h | h | h | h | h <;> subst h <;> simp [Calm]

theorem exEvs_consistent : ∀ e ∈ exEvs, Consistent 2 e := by
  intro e h
  simp only [exEvs, List.mem_cons, List.not_mem_nil, or_false] at h
  rcases h with h | h | h | h | h <;> subst h <;> simp [Consistent, exData]

example : (run (start exCfg) exEvs).log =
    [.received (exData 0), .validated (exData 0), .received (exData 2 (some 2)), .validated (exData 2 (some 2)), .timedOut,
     .received (exData 1), .validated (exData 1), .complete [10, 11, 12]] := by decide

example : Ok (run (start exCfg) exEvs).log := C39_signals exCfg exEvs exEvs_valid (by decide)

example : (run (start { exCfg with inOrder := true }) exEvs).log =
    [.received (exData 0), .validated (exData 0), .inOrder [10], .received (exData 2 (some 2)), .validated (exData 2 (some 2)), .timedOut,
     .received (exData 1), .validated (exData 1), .inOrder [11], .inOrder [12], .inOrderComplete] := by decide

example := C39_inOrder_all { exCfg with inOrder := true } exEvs exEvs_valid (by decide) 2 exEvs_consistent
  [.received (exData 0), .validated (exData 0), .inOrder [10], .received (exData 2 (some 2)), .validated (exData 2 (some 2)), .timedOut,
     .received (exData 1), .validated (exData 1), .inOrder [11], .inOrder [12]] [] (by decide)

example : ∃ i v w a b, Ev.data i (exData 1) v w a b ∈ exEvs := C39_arrived exCfg exEvs _ (by decide)

example : (∃ i w a b, Ev.data i (exData 1) (some true) w a b ∈ exEvs) ∨
    ∃ e1 vid node w a e2, exEvs = e1 ++ .result vid true w a :: e2 ∧ ⟨vid, node, exData 1⟩ ∈ (run (start exCfg) e1).validating :=
  C39_accepted exCfg exEvs _ (by decide)

example : (exData 0).obj = (exData 1).obj := C39_object_partial exCfg exEvs exEvs_valid rfl _ _ (by decide) (by decide)

example : (run (start exCfg) exEvs).ub = false := C39_defined_partial exCfg exEvs exEvs_valid rfl rfl exEvs_calm

example : (run (start exCfg) (exEvs.take 2 ++ .stop :: exEvs.drop 2)).log.length = 4 := by rw [C39_stop]; decide

example : ∃ v, v ∈ (run (start exCfg) [.data 0 (exData 0) none 2 false false]).validating ∧
    (run (start exCfg) [.data 0 (exData 0) none 2 false false]).stopped = false := ⟨⟨1, 0, exData 0⟩, by decide, by decide⟩

example : ∃ l, l ∈ (run (start exCfg) (exEvs.take 3)).live ∧ (run (start exCfg) (exEvs.take 3)).stopped = false :=
  ⟨⟨2, .exact 7 1⟩, by decide, by decide⟩

/-! What is false of the code -/

def C39_object_claim : Prop := ∀ (cfg : Cfg) (evs : List Ev), ValidEvs evs → ∀ x y, Obs.validated x ∈ (run (start cfg) evs).log →
  Obs.validated y ∈ (run (start cfg) evs).log → x.obj = y.obj

/-- The first Interest is retransmitted, and both are answered, the first one late, with different
versions: the buffer mixes two versions. -/
theorem C39_object_counterexample : ¬ C39_object_claim := by
  intro h
  have := h { exCfg with late := true } [.timeout 0 1 false, .data 0 (exData 0) (some true) 2 false false, .data 1 (exData 1 (some 1) 8) (some true) 1 false false]
    (by
      intro i d v w a b h
      simp only [List.mem_cons, List.not_mem_nil, or_false] at h
      rcases h with h | h | h <;> injection h <;> subst_vars <;> simp [exData])
    (exData 0) (exData 1 (some 1) 8) (by decide) (by decide)
  exact absurd this (by decide)

def C39_defined_claim : Prop := ∀ (cfg : Cfg) (evs : List Ev), (∀ i d v w a b, Ev.data i d v w a b ∈ evs → ∃ k, d.seg = some k ∧ k < 2 ^ 63) →
  (run (start cfg) evs).ub = false

/-- Segment 1 times out while the window is full; then its Data arrives and is being validated; when the
window opens segment 1 is requested again, and a second packet is validated: the second validation
uses the iterator erased by the first. -/
theorem C39_revalidation_counterexample : ¬ C39_defined_claim := by
  intro h
  have := h exCfg [.data 0 (exData 0) (some true) 2 false false, .timeout 2 1 false, .data 2 (exData 1) none 1 false false, .timeout 3 2 false,
      .data 5 (exData 1) none 1 false false, .result 4 true 1 false, .result 8 true 1 false]
    (by
      intro i d v w a b h
      simp only [List.mem_cons, List.not_mem_nil, or_false] at h
      rcases h with h | h | h | h | h | h | h <;> injection h <;> subst_vars <;> exact ⟨_, rfl, by decide⟩)
  exact absurd this (by decide)

/-- Segment 3 is being validated when segment 2 says it is the last one. -/
theorem C39_finalBlock_counterexample : ¬ C39_defined_claim := by
  intro h
  have := h exCfg [.data 0 (exData 0) (some true) 3 false false, .data 4 (exData 3) none 1 false false, .data 3 (exData 2 (some 2)) (some true) 1 false false,
      .result 5 true 1 false]
    (by
      intro i d v w a b h
      simp only [List.mem_cons, List.not_mem_nil, or_false] at h
      rcases h with h | h | h | h <;> injection h <;> subst_vars <;> exact ⟨_, rfl, by decide⟩)
  exact absurd this (by decide)

/-- The Interest given ends with a segment number, and times out. -/
theorem C39_baseSegment_counterexample : ¬ C39_defined_claim := by
  intro h
  have := h { exCfg with baseSeg := some 5 } [.timeout 0 1 false] (by intro i d v w a b h; simp at h)
  exact absurd this (by decide)

/-- A handler of `afterSegmentTimedOut` stops the fetcher. -/
theorem C39_handler_stop_counterexample : ¬ C39_defined_claim := by
  intro h
  have := h exCfg [.timeout 0 1 true] (by intro i d v w a b h; simp at h)
  exact absurd this (by decide)

def C39_stop_claim : Prop := ∀ (cfg : Cfg) (evs : List Ev) (i : Nat) (d : Data) (w : Nat),
  (step (run (start cfg) evs) (.data i d (some true) w false true)).log.getLast? ≠ some (.complete d.content)

/-- A handler of `afterSegmentValidated` stops the fetcher, and completion is signalled all the same. -/
theorem C39_stop_counterexample : ¬ C39_stop_claim := by
  intro h
  exact absurd (h exCfg [] 0 (exData 0 (some 0)) 2) (by decide)

/-! ### C79 -/

/-- While the fetcher has signalled neither completion nor error a timer runs, and when it fires after the
maximum time without progress the fetcher signals an error and stops: in the block mode, for an object whose
segments agree on the last one. -/
theorem C79_no_hang_partial (cfg : Cfg) (evs : List Ev) (N : Nat) (he : ValidEvs evs) (hN : N + 1 < 2 ^ 63)
    (hc : cfg.late = false) (hb : cfg.baseSeg = none) (hi : cfg.inOrder = false)
    (hq : ∀ e ∈ evs, Calm e) (hcons : ∀ e ∈ evs, Consistent N e) (hs : (run (start cfg) evs).stopped = false) :
    ∃ node, ∀ w, (run (start cfg) (evs ++ [.advance cfg.maxTimeout, .timeout node w false])).log =
      (run (start cfg) evs).log ++ [.timedOut, .error 1] := by
  have g := run_going hN (start_good cfg) (start_L cfg hc) (start_def cfg hb) (start_going N cfg hi) he hq hcons
  have hlast := run_last (start cfg) evs (fun _ h => absurd h (List.not_mem_nil)) (by decide : (0 : Nat) ≤ 0)
  have hcfg : (run (start cfg) evs).cfg = cfg := by
    have : ∀ s : St, (run s evs).cfg = s.cfg := by
      clear g hlast hs he hq hcons
      induction evs with
      | nil => intro s; rfl
      | cons e evs ih => intro s; exact (ih _).trans (step_cfg s e)
    exact this _
  have e : ∀ l, run (start cfg) (evs ++ l) = run (run (start cfg) evs) l := by intro l; unfold run; rw [List.foldl_append]
  rcases g.2 with g1 | ⟨_, p, hp, ht⟩
  · rw [hs] at g1; simp at g1
  refine ⟨p.node, fun w => ?_⟩
  rw [e]
  generalize run (start cfg) evs = s at *
  show (onTimeout { s with now := s.now + cfg.maxTimeout } p.node w false).log = _
  unfold onTimeout
  have hf : ∃ q, s.pending.find? (fun q => q.node = p.node && q.timer) = some q := by
    cases hfd : s.pending.find? (fun q => q.node = p.node && q.timer) with
    | some q => exact ⟨q, rfl⟩
    | none => exact absurd (by simp [ht]) (List.find?_eq_none.1 hfd p hp)
  obtain ⟨q, hq'⟩ := hf
  simp only [hq', unschedule, hs, Bool.false_eq_true, if_false, signal]
  unfold afterLoss
  rw [if_pos (by simp only [hcfg]; omega)]
  unfold error
  rw [stop_log]
  simp

example : ∃ node, ∀ w, (run (start exCfg) (exEvs.take 3 ++ [.advance 60000, .timeout node w false])).log =
    (run (start exCfg) (exEvs.take 3)).log ++ [.timedOut, .error 1] := by
  have hsub : ∀ e ∈ exEvs.take 3, e ∈ exEvs := fun e h => List.mem_of_mem_take h
  exact C79_no_hang_partial exCfg (exEvs.take 3) 2 (fun i d v w a b h => exEvs_valid i d v w a b (hsub _ h)) (by decide) rfl rfl rfl
    (fun e h => exEvs_calm e (hsub e h)) (fun e h => exEvs_consistent e (hsub e h)) (by decide)

/-- A fetcher that has not stopped has a timer running. -/
def C79_claim : Prop := ∀ (cfg : Cfg) (evs : List Ev) (N : Nat), 1 ≤ cfg.fcw → ValidEvs evs → N + 1 < 2 ^ 63 → cfg.late = false → cfg.baseSeg = none →
  (∀ e ∈ evs, Calm e) → (∀ e ∈ evs, Consistent N e) → (run (start cfg) evs).stopped = false →
  ∃ p ∈ (run (start cfg) evs).pending, p.timer = true

/-- In the in-order mode, with a flow control window of one segment, the first packet found is not segment 0: it fills
the window, nothing is requested any more and no timer runs. -/
theorem C79_inOrder_counterexample : ¬ C79_claim := by
  intro h
  obtain ⟨p, hp, _⟩ := h ⟨true, 1, none, 60000, false⟩ [.data 0 (exData 1) (some true) 2 false false] 2 (by decide)
    (by
      intro i d v w a b h
      simp only [List.mem_cons, List.not_mem_nil, or_false] at h
      injection h; subst_vars; simp [exData])
    (by decide) rfl rfl
    (by intro e h; simp only [List.mem_cons, List.not_mem_nil, or_false] at h; subst h; simp [Calm])
    (by intro e h; simp only [List.mem_cons, List.not_mem_nil, or_false] at h; subst h; simp [Consistent, exData])
    (by decide)
  have : (run (start ⟨true, 1, none, 60000, false⟩) [.data 0 (exData 1) (some true) 2 false false]).pending = [] := by decide
  rw [this] at hp
  simp at hp

end Ndn.Fetch
