import Verif.Nfd.ControllerLemmas3
namespace Ndn.Nfd
open Tlv Tlv.Spec Block Block.Spec Name Packet Packet.Spec Mgmt

theorem fetchError_eq (c : Nat) : fetchError c = codeOf c := by
  match c with
  | 0 | 1 | 2 | 3 | 4 | 5 => rfl
  | n + 6 => simp [fetchError, codeOf]

theorem fresh_cmd {l : CLog} {s : Ctl} (h : CInv l s) : ∀ x ∈ l, ∀ n', .asked s.cmds.length n' ∉ x.2 := by
  have := h.cmd s.cmds.length
  rw [List.getElem?_eq_none (Nat.le_refl _)] at this
  exact fun x hx n' hn => this x hx ⟨n', hn⟩

theorem fresh_job {l : CLog} {s : Ctl} (h : CInv l s) : ∀ x ∈ l, ∀ n', .fetching s.jobs.length n' ∉ x.2 := by
  have := h.job s.jobs.length
  rw [List.getElem?_eq_none (Nat.le_refl _)] at this
  exact fun x hx n' hn => this x hx ⟨n', hn⟩

theorem gone_iff {l : CLog} {s : Ctl} (h : CInv l s) : Gone l ↔ s.alive = false := by
  have := h.alive
  cases ha : s.alive with
  | false => rw [ha] at this; simp at this; simp [this]
  | true => rw [ha] at this; simp at this; simp [this]

theorem not_waiting {l : CLog} {s : Ctl} (h : CInv l s) {i : Nat} (hw : ∀ c a b, ¬ Waiting l i c a b) {c : Cmd} (hc : s.cmds[i]? = some c) :
    c.phase ≠ .waiting := by
  intro hp
  refine hw c.command c.onSuccess c.onFailure ((waiting_iff h).2 ?_)
  rw [hc, ← hp]

theorem not_validating {l : CLog} {s : Ctl} (h : CInv l s) {i : Nat} (hw : ∀ c a b t, ¬ Validating l i c a b t) {c : Cmd}
    (hc : s.cmds[i]? = some c) (t : Bytes) : c.phase ≠ .validating t := by
  intro hp
  refine hw c.command c.onSuccess c.onFailure t ((validating_iff h).2 ?_)
  rw [hc, ← hp]

theorem not_fetching {l : CLog} {s : Ctl} (h : CInv l s) {j : Nat} (hw : ∀ d a b, ¬ Fetching l j d a b) {c : Job}
    (hc : s.jobs[j]? = some c) : c.running = false := by
  cases hr : c.running with
  | false => rfl
  | true =>
    exfalso
    refine hw c.dataset c.onSuccess c.onFailure ((fetching_iff h).2 ?_)
    rw [hc, ← hr]

theorem expected_step {l : CLog} {s : Ctl} (h : CInv l s) (e : CEv) : CExpected l e (s.step e).1 := by
  have hg := gone_iff h
  cases e with
  | start c pfx p onS onF =>
    refine ⟨fun hgo => ?_, fun hgo => ?_⟩
    · rw [hg] at hgo; simp [Ctl.step, hgo]
    · have ha := h.alive.2 hgo
      refine ⟨fun hr => by simp [Ctl.step, ha, hr], fun n hr => ⟨s.cmds.length, by simp [Ctl.step, ha, hr], fresh_cmd h⟩⟩
  | data i ct =>
    refine ⟨fun c a b hw => ?_, fun hw => ?_⟩
    · rw [waiting_iff h] at hw
      refine ⟨fun hgo => ?_, fun hgo => ?_⟩
      · have ha := h.alive.2 hgo
        simp [Ctl.step, hw, ha]
      · rw [hg] at hgo; simp [Ctl.step, hw, hgo]
    · simp only [Ctl.step]
      cases hc : s.cmds[i]? with
      | none => rfl
      | some c => simp [not_waiting h hw hc]
  | nack i =>
    refine ⟨fun c a b hw => ?_, fun hw => ?_⟩
    · rw [waiting_iff h] at hw
      simp [Ctl.step, hw, failure, errorNack]
    · simp only [Ctl.step]
      cases hc : s.cmds[i]? with
      | none => rfl
      | some c => simp [not_waiting h hw hc]
  | timeout i =>
    refine ⟨fun c a b hw => ?_, fun hw => ?_⟩
    · rw [waiting_iff h] at hw
      simp [Ctl.step, hw, failure, errorTimeout]
    · simp only [Ctl.step]
      cases hc : s.cmds[i]? with
      | none => rfl
      | some c => simp [not_waiting h hw hc]
  | valid i =>
    refine ⟨fun c a b ct hw => ?_, fun hw => ?_⟩
    · rw [validating_iff h] at hw
      have : (s.step (.valid i)).1 = processResponse ⟨c, a, b, .validating ct⟩ i ct := by simp [Ctl.step, hw]
      rw [this]
      exact processResponse_reported ⟨c, a, b, .validating ct⟩ i ct
    · simp only [Ctl.step]
      cases hc : s.cmds[i]? with
      | none => rfl
      | some c =>
        dsimp only
        split
        · rename_i ct hct; exact absurd hct (not_validating h hw hc ct)
        · rfl
  | invalid i =>
    refine ⟨fun c a b ct hw => ?_, fun hw => ?_⟩
    · rw [validating_iff h] at hw
      simp [Ctl.step, hw, failure, errorValidation]
    · simp only [Ctl.step]
      cases hc : s.cmds[i]? with
      | none => rfl
      | some c =>
        dsimp only
        split
        · rename_i ct hct; exact absurd hct (not_validating h hw hc ct)
        · rfl
  | fetch d pfx onS onF =>
    refine ⟨fun hgo => ?_, fun hgo => ?_⟩
    · rw [hg] at hgo; simp [Ctl.step, hgo]
    · have ha := h.alive.2 hgo
      exact ⟨s.jobs.length, by simp [Ctl.step, ha], fresh_job h⟩
  | complete j p de =>
    refine ⟨fun d a b hw => ?_, fun hw => ?_⟩
    · rw [fetching_iff h] at hw
      have ha := running_alive h hw rfl
      refine ⟨fun r hr => ?_, fun hr => ?_, fun hr => ?_, fun hr => ?_⟩
      · cases a <;> cases de <;> simp [Ctl.step, hw, hr, Ctl.eraseFetcher, ha, Ctl.destroyed, afterwards]
      · cases b <;> cases de <;> simp [Ctl.step, hw, hr, Ctl.eraseFetcher, ha, Ctl.destroyed, afterwards, errorServer]
      · simp [Ctl.step, hw, hr]
      · simp [Ctl.step, hw, hr]
    · simp only [Ctl.step]
      cases hc : s.jobs[j]? with
      | none => rfl
      | some c => simp [not_fetching h hw hc]
  | error j co de =>
    refine ⟨fun d a b hw => ?_, fun hw => ?_⟩
    · rw [fetching_iff h] at hw
      have ha := running_alive h hw rfl
      rw [← fetchError_eq]
      refine ⟨fun n hr => ?_, fun hr => ?_⟩
      · cases b <;> cases de <;> simp [Ctl.step, hw, hr, Ctl.eraseFetcher, ha, Ctl.destroyed, afterwards]
      · cases b <;> cases de <;> simp [Ctl.step, hw, hr, Ctl.eraseFetcher, ha]
    · simp only [Ctl.step]
      cases hc : s.jobs[j]? with
      | none => rfl
      | some c => simp [not_fetching h hw hc]
  | destroy => simp only [CExpected, Ctl.step]; split <;> rfl

theorem cinv_init : CInv [] {} where
  alive := by simp [Gone]
  cmd := fun i => by simp [CmdIs]
  job := fun j => by simp [JobIs]
  fetchers := fun j x h => by simp at h

theorem run_split (es : List CEv) : ∀ (l : CLog) (s : Ctl), CInv l s → ∀ l1 e os l2, es.zip (Ctl.run es s).1 = l1 ++ (e, os) :: l2 →
    ∃ s', CInv (l ++ l1) s' ∧ os = (s'.step e).1 := by
  induction es with
  | nil => intro l s h l1 e os l2 he; simp [Ctl.run] at he
  | cons e0 es ih =>
    intro l s h l1 e os l2 he
    simp only [Ctl.run, List.zip_cons_cons] at he
    cases l1 with
    | nil =>
      simp only [List.nil_append, List.cons.injEq, Prod.mk.injEq] at he
      obtain ⟨⟨rfl, rfl⟩, -⟩ := he
      exact ⟨s, by simpa using h, rfl⟩
    | cons x l1 =>
      simp only [List.cons_append, List.cons.injEq] at he
      obtain ⟨rfl, he⟩ := he
      obtain ⟨s', h1, h2⟩ := ih _ _ (inv_next h e0) l1 e os l2 he
      exact ⟨s', by simpa using h1, h2⟩

/-! ### How often -/

/-- The outcome of command `i`. -/
def isOutcome (i : Nat) : COut → Bool
  | .success k _ => k = i
  | .failure k _ => k = i
  | _ => false

/-- The outcome of the fetch `j`. -/
def isAnswer (j : Nat) : COut → Bool
  | .result k _ => k = j
  | .failed k _ => k = j
  | _ => false

theorem count_failure (c : Cmd) (k : Nat) (f : Failure) (i : Nat) : (failure c k f).countP (isOutcome i) ≤ if k = i then 1 else 0 := by
  unfold failure
  split
  · by_cases h : k = i <;> simp [isOutcome, h, List.countP_cons]
  · simp

theorem response_length (c : Cmd) (k : Nat) (ct : Bytes) : (processResponse c k ct).length ≤ 1 := by
  have hf : ∀ f, (failure c k f).length ≤ 1 := by intro f; unfold failure; split <;> simp
  unfold processResponse
  repeat' split
  all_goals first
    | exact hf _
    | simp

theorem count_response (c : Cmd) (k : Nat) (ct : Bytes) (i : Nat) : (processResponse c k ct).countP (isOutcome i) ≤ if k = i then 1 else 0 := by
  by_cases h : k = i
  · rw [if_pos h]
    exact Nat.le_trans List.countP_le_length (response_length c k ct)
  · rw [if_neg h, Nat.le_zero, List.countP_eq_zero]
    intro o ho
    rcases processResponse_outs c k ct o ho with ⟨p, rfl⟩ | ⟨f, rfl⟩ <;> simp [isOutcome, h]

def over (s : Ctl) (i : Nat) : Nat :=
  match s.cmds[i]? with
  | some c => if c.phase = .over then 1 else 0
  | none => 0

def stopped (s : Ctl) (j : Nat) : Nat :=
  match s.jobs[j]? with
  | some x => if x.running then 0 else 1
  | none => 0

theorem over_phase (s : Ctl) (k : Nat) (c : Cmd) (hc : s.cmds[k]? = some c) (ph : Phase) (h : c.phase ≠ .over) (i : Nat) (n : Nat)
    (hn : n ≤ if k = i then (if ph = .over then 1 else 0) else 0) : n + over s i ≤ over (setPhase s k c ph) i := by
  have hlt : k < s.cmds.length := (List.getElem?_eq_some_iff.1 hc).1
  by_cases hk : k = i
  · subst hk
    simp only [over, setPhase, hc, List.getElem?_set_self hlt, if_neg h]
    simpa using hn
  · rw [if_neg hk] at hn
    simp only [over, setPhase, List.getElem?_set_ne hk]
    omega

theorem over_le (s : Ctl) (i : Nat) : over s i ≤ 1 := by
  unfold over
  (repeat' split) <;> omega

theorem stopped_le (s : Ctl) (i : Nat) : stopped s i ≤ 1 := by
  unfold stopped
  (repeat' split) <;> omega

theorem erase_count (s : Ctl) (j i : Nat) : (s.eraseFetcher j).1.countP (isOutcome i) = 0 ∧ (s.eraseFetcher j).1.countP (isAnswer i) = 0 ∧
    (s.eraseFetcher j).2.cmds = s.cmds ∧ (s.eraseFetcher j).2.jobs = s.jobs := by
  unfold Ctl.eraseFetcher
  split <;> simp [List.countP_cons, isOutcome, isAnswer]

theorem finish_cmds (s : Ctl) (j : Nat) (x : Job) (cb : Option COut) (d : Bool) : (finish s j x cb d).2.cmds = s.cmds := by
  unfold finish
  cases cb with
  | none => exact (erase_count _ j 0).2.2.1
  | some o =>
    show ((if d = true then _ else _ : Ctl).eraseFetcher j).2.cmds = _
    rw [(erase_count _ j 0).2.2.1]
    cases d <;> rfl

theorem finish_outs (s : Ctl) (j : Nat) (x : Job) (cb : Option COut) (d : Bool) : (finish s j x cb d).1 = cb.toList ∨
    (finish s j x cb d).1 = cb.toList ++ [.ub] := by
  have he : ∀ s : Ctl, (s.eraseFetcher j).1 = [] ∨ (s.eraseFetcher j).1 = [.ub] := by
    intro s; unfold Ctl.eraseFetcher; split <;> simp
  unfold finish
  cases cb with
  | none => exact he _
  | some o =>
    rcases he (if d = true then Ctl.destroyed { s with jobs := s.jobs.set j { x with running := false } } else
      { s with jobs := s.jobs.set j { x with running := false } }) with h | h
    · left; simp only [h]; rfl
    · right; simp only [h]; rfl

theorem outcome_step (s : Ctl) (e : CEv) (i : Nat) : (s.step e).1.countP (isOutcome i) + over s i ≤ over (s.step e).2 i := by
  cases e with
  | start c pfx p onS onF =>
    simp only [Ctl.step]
    repeat' split
    · simp
    · simp [List.countP_cons, isOutcome]
    · simp only [List.countP_cons, List.countP_nil, isOutcome, Bool.false_eq_true, if_false, Nat.zero_add]
      unfold over
      by_cases hlt : i < s.cmds.length
      · simp only [List.getElem?_append_left hlt]; exact Nat.le_refl _
      · rw [List.getElem?_eq_none (by omega)]; exact Nat.zero_le _
  | fetch d pfx onS onF =>
    simp only [Ctl.step]
    split
    · simp
    · simp only [List.countP_cons, List.countP_nil, isOutcome, Bool.false_eq_true, if_false, Nat.zero_add]
      exact Nat.le_refl _
  | destroy =>
    simp only [Ctl.step]
    split
    · simp only [List.countP_nil, Nat.zero_add]; exact Nat.le_refl _
    · simp
  | data k ct =>
    simp only [Ctl.step]
    repeat' split
    · rename_i c hc hp ha
      refine over_phase s k c hc _ (by rw [hp]; simp) i _ (by simp)
    · rename_i c hc hp ha
      refine over_phase s k c hc _ (by rw [hp]; simp) i _ (by simp [List.countP_cons, isOutcome])
    · simp
    · simp
  | nack k =>
    simp only [Ctl.step]
    repeat' split
    · rename_i c hc hp
      exact over_phase s k c hc _ (by rw [hp]; simp) i _ (by simpa using count_failure c k _ i)
    · simp
    · simp
  | timeout k =>
    simp only [Ctl.step]
    repeat' split
    · rename_i c hc hp
      exact over_phase s k c hc _ (by rw [hp]; simp) i _ (by simpa using count_failure c k _ i)
    · simp
    · simp
  | valid k =>
    simp only [Ctl.step]
    repeat' split
    · rename_i c hc _ ct hp
      exact over_phase s k c hc _ (by rw [hp]; simp) i _ (by simpa using count_response c k ct i)
    · simp
    · simp
  | invalid k =>
    simp only [Ctl.step]
    repeat' split
    · rename_i c hc _ ct hp
      exact over_phase s k c hc _ (by rw [hp]; simp) i _ (by simpa using count_failure c k _ i)
    · simp
    · simp
  | complete j p d =>
    cases hj : s.jobs[j]? with
    | none => simp [Ctl.step, hj]
    | some x =>
      cases hr : x.running with
      | false => simp [Ctl.step, hj, hr]
      | true =>
        rcases end_forms hj hr (.complete j p d) (.inl ⟨p, d, rfl⟩) with ⟨cb, de, hs, -, -, hcb⟩ | ⟨o, ho, hs⟩
        · rw [hs]
          have h1 : over (finish s j x cb de).2 i = over s i := by unfold over; rw [finish_cmds]
          have h2 : (finish s j x cb de).1.countP (isOutcome i) = 0 := by
            have hc : cb.toList.countP (isOutcome i) = 0 := by
              cases cb with
              | none => rfl
              | some o => rcases hcb o rfl with ⟨r, rfl⟩ | ⟨r, rfl⟩ <;> simp [List.countP_cons, isOutcome]
            rcases finish_outs s j x cb de with h | h <;> rw [h]
            · exact hc
            · rw [List.countP_append, hc]; simp [List.countP_cons, isOutcome]
          rw [h1, h2]; omega
        · rw [hs]
          have : [o].countP (isOutcome i) = 0 := by rcases ho with rfl | rfl <;> simp [List.countP_cons, isOutcome]
          simp only [this, Nat.zero_add]; exact Nat.le_refl _
  | error j p d =>
    cases hj : s.jobs[j]? with
    | none => simp [Ctl.step, hj]
    | some x =>
      cases hr : x.running with
      | false => simp [Ctl.step, hj, hr]
      | true =>
        rcases end_forms hj hr (.error j p d) (.inr ⟨p, d, rfl⟩) with ⟨cb, de, hs, -, -, hcb⟩ | ⟨o, ho, hs⟩
        · rw [hs]
          have h1 : over (finish s j x cb de).2 i = over s i := by unfold over; rw [finish_cmds]
          have h2 : (finish s j x cb de).1.countP (isOutcome i) = 0 := by
            have hc : cb.toList.countP (isOutcome i) = 0 := by
              cases cb with
              | none => rfl
              | some o => rcases hcb o rfl with ⟨r, rfl⟩ | ⟨r, rfl⟩ <;> simp [List.countP_cons, isOutcome]
            rcases finish_outs s j x cb de with h | h <;> rw [h]
            · exact hc
            · rw [List.countP_append, hc]; simp [List.countP_cons, isOutcome]
          rw [h1, h2]; omega
        · rw [hs]
          have : [o].countP (isOutcome i) = 0 := by rcases ho with rfl | rfl <;> simp [List.countP_cons, isOutcome]
          simp only [this, Nat.zero_add]; exact Nat.le_refl _

theorem stopped_set (s : Ctl) (j : Nat) (x : Job) (hj : s.jobs[j]? = some x) (hr : x.running = true) (i : Nat) :
    (if j = i then 1 else 0) + stopped s i ≤ stopped { s with jobs := s.jobs.set j { x with running := false } } i := by
  have hlt : j < s.jobs.length := (List.getElem?_eq_some_iff.1 hj).1
  by_cases hk : j = i
  · subst hk
    simp [stopped, hj, hr, List.getElem?_set_self hlt]
  · simp [stopped, hk, List.getElem?_set_ne hk]

theorem stopped_destroyed (s : Ctl) (i : Nat) : stopped s i ≤ stopped s.destroyed i := by
  unfold stopped
  rw [destroyed_jobs]
  cases s.jobs[i]? with
  | none => simp
  | some x =>
    simp only [Option.map_some]
    by_cases h : i ∈ s.fetchers <;> cases hr : x.running <;> simp [h, hr]

theorem stopped_erase (s : Ctl) (i k : Nat) : stopped (s.eraseFetcher k).2 i = stopped s i := by
  unfold stopped
  rw [(erase_count s k 0).2.2.2]

theorem finish_stopped (s : Ctl) (j : Nat) (x : Job) (hj : s.jobs[j]? = some x) (hr : x.running = true) (cb : Option COut) (d : Bool) (i : Nat) :
    (if j = i then 1 else 0) + stopped s i ≤ stopped (finish s j x cb d).2 i := by
  refine Nat.le_trans (stopped_set s j x hj hr i) ?_
  unfold finish
  cases cb with
  | none => dsimp only; rw [stopped_erase]; exact Nat.le_refl _
  | some o =>
    dsimp only; rw [stopped_erase]
    cases d with
    | false => exact Nat.le_refl _
    | true => exact stopped_destroyed _ _

theorem answer_end {s : Ctl} {j : Nat} {x : Job} (hj : s.jobs[j]? = some x) (hr : x.running = true) (e : CEv) (he : IsEnd j e) (i : Nat) :
    (s.step e).1.countP (isAnswer i) + stopped s i ≤ stopped (s.step e).2 i := by
  rcases end_forms hj hr e he with ⟨cb, de, hs, -, -, hcb⟩ | ⟨o, ho, hs⟩
  · rw [hs]
    have h2 : (finish s j x cb de).1.countP (isAnswer i) ≤ if j = i then 1 else 0 := by
      have hc : cb.toList.countP (isAnswer i) ≤ if j = i then 1 else 0 := by
        cases cb with
        | none => simp
        | some o =>
          rcases hcb o rfl with ⟨r, rfl⟩ | ⟨r, rfl⟩ <;> by_cases h : j = i <;> simp [List.countP_cons, isAnswer, h]
      rcases finish_outs s j x cb de with h | h <;> rw [h]
      · exact hc
      · rw [List.countP_append]; simpa [List.countP_cons, isAnswer] using hc
    have := finish_stopped s j x hj hr cb de i
    omega
  · rw [hs]
    have h1 : [o].countP (isAnswer i) = 0 := by rcases ho with rfl | rfl <;> simp [List.countP_cons, isAnswer]
    have := stopped_set s j x hj hr i
    simp only [h1]
    omega

theorem answer_step (s : Ctl) (e : CEv) (i : Nat) : (s.step e).1.countP (isAnswer i) + stopped s i ≤ stopped (s.step e).2 i := by
  have hfail : ∀ c k f, (failure c k f).countP (isAnswer i) = 0 := by
    intro c k f
    rw [List.countP_eq_zero]
    intro o ho
    rw [failure_outs _ _ _ _ ho]; simp [isAnswer]
  have hresp : ∀ c k ct, (processResponse c k ct).countP (isAnswer i) = 0 := by
    intro c k ct
    rw [List.countP_eq_zero]
    intro o ho
    rcases processResponse_outs c k ct o ho with ⟨p, rfl⟩ | ⟨f, rfl⟩ <;> simp [isAnswer]
  have hph : ∀ k c ph, stopped (setPhase s k c ph) i = stopped s i := fun _ _ _ => rfl
  cases e with
  | start c pfx p onS onF =>
    simp only [Ctl.step]
    repeat' split
    all_goals simp [List.countP_cons, isAnswer]
    exact Nat.le_refl _
  | fetch d pfx onS onF =>
    simp only [Ctl.step]
    split
    · simp
    · simp only [List.countP_cons, List.countP_nil, isAnswer, Bool.false_eq_true, if_false, Nat.zero_add]
      unfold stopped
      by_cases hlt : i < s.jobs.length
      · simp only [List.getElem?_append_left hlt]; exact Nat.le_refl _
      · rw [List.getElem?_eq_none (by omega)]; exact Nat.zero_le _
  | destroy =>
    simp only [Ctl.step]
    split
    · simp only [List.countP_nil, Nat.zero_add]; exact stopped_destroyed s i
    · simp
  | data k ct =>
    simp only [Ctl.step]
    repeat' split
    all_goals simp [hph, List.countP_cons, isAnswer]
  | nack k =>
    simp only [Ctl.step]
    repeat' split
    all_goals simp [hph, hfail]
  | timeout k =>
    simp only [Ctl.step]
    repeat' split
    all_goals simp [hph, hfail]
  | valid k =>
    simp only [Ctl.step]
    repeat' split
    all_goals simp [hph, hresp]
  | invalid k =>
    simp only [Ctl.step]
    repeat' split
    all_goals simp [hph, hfail]
  | complete j p d =>
    cases hj : s.jobs[j]? with
    | none => simp [Ctl.step, hj]
    | some x =>
      cases hr : x.running with
      | false => simp [Ctl.step, hj, hr]
      | true => exact answer_end hj hr _ (.inl ⟨p, d, rfl⟩) i
  | error j p d =>
    cases hj : s.jobs[j]? with
    | none => simp [Ctl.step, hj]
    | some x =>
      cases hr : x.running with
      | false => simp [Ctl.step, hj, hr]
      | true => exact answer_end hj hr _ (.inr ⟨p, d, rfl⟩) i

theorem outcome_run (es : List CEv) (i : Nat) : ∀ s : Ctl, (Ctl.run es s).1.flatten.countP (isOutcome i) + over s i ≤ over (Ctl.run es s).2 i := by
  induction es with
  | nil => intro s; simp [Ctl.run]
  | cons e es ih =>
    intro s
    simp only [Ctl.run, List.flatten_cons, List.countP_append]
    have := outcome_step s e i
    have := ih (s.step e).2
    omega

theorem answer_run (es : List CEv) (i : Nat) : ∀ s : Ctl, (Ctl.run es s).1.flatten.countP (isAnswer i) + stopped s i ≤ stopped (Ctl.run es s).2 i := by
  induction es with
  | nil => intro s; simp [Ctl.run]
  | cons e es ih =>
    intro s
    simp only [Ctl.run, List.flatten_cons, List.countP_append]
    have := answer_step s e i
    have := ih (s.step e).2
    omega

end Ndn.Nfd
