import Verif.Nfd.ControllerLemmas2
namespace Ndn.Nfd
open Tlv Tlv.Spec Block Block.Spec Name Packet Packet.Spec Mgmt

def CmdStep (i : Nat) (x : CEv × List COut) (o o' : Option Cmd) : Prop :=
  (o = none ∧ o' = none) ∨
  ∃ c ph, o = some c ∧ o' = some { c with phase := ph } ∧ ∀ l2, PhaseIs i l2 c.phase → PhaseIs i (l2 ++ [x]) ph

def JobStep (j : Nat) (x : CEv × List COut) (o o' : Option Job) : Prop :=
  (o = none ∧ o' = none) ∨
  ∃ c r, o = some c ∧ o' = some { c with running := r } ∧ (r = true ↔ c.running = true ∧ ¬ IsEnd j x.1 ∧ ¬ Gone [x])

theorem inv_step {l : CLog} {s s' : Ctl} (h : CInv l s) (x : CEv × List COut) (na : ∀ i, ¬ Asks i x) (nf : ∀ j, ¬ Fetches j x)
    (ha : s'.alive = true ↔ s.alive = true ∧ ¬ Gone [x]) (hc : ∀ i, CmdStep i x s.cmds[i]? s'.cmds[i]?)
    (hj : ∀ j, JobStep j x s.jobs[j]? s'.jobs[j]?) (hf : ∀ j y, s'.jobs[j]? = some y → y.running = true → j ∈ s'.fetchers) :
    CInv (l ++ [x]) s' := by
  refine ⟨?_, fun i => ?_, fun j => ?_, hf⟩
  · rw [ha, h.alive, gone_snoc, not_or]
  · have hi := h.cmd i
    rcases hc i with ⟨h1, h2⟩ | ⟨c, ph, h1, h2, h3⟩
    · rw [h1] at hi; rw [h2]
      intro y hy
      rcases List.mem_append.1 hy with hy | hy
      · exact hi y hy
      · rw [List.mem_singleton.1 hy]; exact na i
    · rw [h1] at hi; rw [h2]
      exact cmd_change hi (na i) h3
  · have hi := h.job j
    rcases hj j with ⟨h1, h2⟩ | ⟨c, r, h1, h2, h3⟩
    · rw [h1] at hi; rw [h2]
      intro y hy
      rcases List.mem_append.1 hy with hy | hy
      · exact hi y hy
      · rw [List.mem_singleton.1 hy]; exact nf j
    · rw [h1] at hi; rw [h2]
      by_cases hk : IsEnd j x.1 ∨ Gone [x]
      · have : r = false := by
          cases r with
          | false => rfl
          | true => have := h3.1 rfl; rcases hk with hk | hk
                    · exact absurd hk this.2.1
                    · exact absurd hk this.2.2
        rw [this]
        exact job_stop hi (nf j) hk
      · rw [not_or] at hk
        have : r = c.running := by
          cases hr : c.running with
          | false => cases r with
            | false => rfl
            | true => have := (h3.1 rfl).1; rw [hr] at this; cases this
          | true => exact h3.2 ⟨hr, hk⟩
        rw [this]
        exact job_snoc hi (nf j) (.inl hk.1) (.inl hk.2)

theorem cmdStep_refl {i : Nat} {x : CEv × List COut} {o : Option Cmd} (h1 : ¬ IsReply i x.1 ∨ ∀ c, o = some c → c.phase ≠ .waiting)
    (h2 : ¬ IsVerdict i x.1 ∨ ∀ c, o = some c → ∀ ct, c.phase ≠ .validating ct) : CmdStep i x o o := by
  cases o with
  | none => exact .inl ⟨rfl, rfl⟩
  | some c => exact .inr ⟨c, c.phase, rfl, rfl, fun l2 h => phase_snoc h (h1.imp id fun h => h c rfl) (h2.imp id fun h => h c rfl)⟩

theorem jobStep_refl {j : Nat} {x : CEv × List COut} {o : Option Job} (h1 : ¬ IsEnd j x.1 ∨ ∀ c, o = some c → c.running = false)
    (h2 : ¬ Gone [x] ∨ ∀ c, o = some c → c.running = false) : JobStep j x o o := by
  cases o with
  | none => exact .inl ⟨rfl, rfl⟩
  | some c =>
    refine .inr ⟨c, c.running, rfl, rfl, fun h => ⟨h, ?_, ?_⟩, fun h => h.1⟩
    · rcases h1 with h1 | h1
      · exact h1
      · rw [h1 c rfl] at h; cases h
    · rcases h2 with h2 | h2
      · exact h2
      · rw [h2 c rfl] at h; cases h

theorem not_gone {e : CEv} {os : List COut} (h1 : e ≠ .destroy) (h2 : ∀ j p, e ≠ .complete j p true) (h3 : ∀ j c, e ≠ .error j c true) :
    ¬ Gone [(e, os)] := by
  rintro ⟨y, hy, h⟩
  rw [List.mem_singleton] at hy
  subst hy
  rcases h with h | ⟨j, ⟨p, h⟩ | ⟨c, h⟩, -⟩
  · exact h1 h
  · exact h2 j p h
  · exact h3 j c h

theorem not_gone_out {e : CEv} {os : List COut} (h1 : e ≠ .destroy) (h2 : ∀ j, ¬ CalledBack j os) : ¬ Gone [(e, os)] := by
  rintro ⟨y, hy, h⟩
  rw [List.mem_singleton] at hy
  subst hy
  rcases h with h | ⟨j, -, h⟩
  · exact h1 h
  · exact h2 j h

theorem no_asks {s : Ctl} {e : CEv} (h : ∀ c pfx p onS onF, e ≠ .start c pfx p onS onF) (i : Nat) : ¬ Asks i (e, (s.step e).1) := by
  rintro ⟨n, hn⟩
  obtain ⟨-, -, c, pfx, p, onS, onF, he, -⟩ := asks_only hn
  exact h c pfx p onS onF he

theorem no_fetches {s : Ctl} {e : CEv} (h : ∀ d pfx onS onF, e ≠ .fetch d pfx onS onF) (j : Nat) : ¬ Fetches j (e, (s.step e).1) := by
  rintro ⟨n, hn⟩
  obtain ⟨-, -, d, pfx, onS, onF, he, -⟩ := fetches_only hn
  exact h d pfx onS onF he

/-- An event about a command that does nothing, or changes the phase of that command. -/
theorem inv_cmd {l : CLog} {s : Ctl} (h : CInv l s) (e : CEv) (i : Nat)
    (he : (∃ ct, e = .data i ct) ∨ e = .nack i ∨ e = .timeout i ∨ e = .valid i ∨ e = .invalid i)
    (hs : ((s.step e).2 = s ∧ (IsReply i e → ∀ c, s.cmds[i]? = some c → c.phase ≠ .waiting) ∧
        (IsVerdict i e → ∀ c, s.cmds[i]? = some c → ∀ ct, c.phase ≠ .validating ct)) ∨
      ∃ c ph, s.cmds[i]? = some c ∧ (s.step e).2 = setPhase s i c ph ∧
        ∀ l2, PhaseIs i l2 c.phase → PhaseIs i (l2 ++ [(e, (s.step e).1)]) ph) :
    CInv (l ++ [(e, (s.step e).1)]) (s.step e).2 := by
  have hna := no_asks (s := s) (e := e) (by rintro c pfx p onS onF rfl; simp at he)
  have hnf := no_fetches (s := s) (e := e) (by rintro c pfx onS onF rfl; simp at he)
  have hg : ¬ Gone [(e, (s.step e).1)] := by
    apply not_gone
    · rintro rfl; simp at he
    · rintro j p rfl; simp at he
    · rintro j p rfl; simp at he
  have hend : ∀ j, ¬ IsEnd j e := by
    rintro j (⟨p, d, rfl⟩ | ⟨p, d, rfl⟩) <;> simp at he
  have hoth : ∀ k, k ≠ i → ¬ IsReply k e ∧ ¬ IsVerdict k e := by
    intro k hk
    constructor
    · rintro (⟨ct, rfl⟩ | rfl | rfl) <;> simp at he <;> exact hk he
    · rintro (rfl | rfl) <;> simp at he <;> exact hk he
  rcases hs with ⟨hs, h1, h2⟩ | ⟨c, ph, hc, hs, hp⟩
  · rw [hs]
    refine inv_step h _ hna hnf (by simp [hg]) (fun k => cmdStep_refl ?_ ?_) (fun j => jobStep_refl (.inl (hend j)) (.inl hg)) h.fetchers
    · by_cases hk : k = i
      · subst hk
        by_cases hr : IsReply k e
        · exact .inr (h1 hr)
        · exact .inl hr
      · exact .inl (hoth k hk).1
    · by_cases hk : k = i
      · subst hk
        by_cases hr : IsVerdict k e
        · exact .inr (h2 hr)
        · exact .inl hr
      · exact .inl (hoth k hk).2
  · rw [hs]
    refine inv_step h _ hna hnf (by simp [hg, setPhase]) (fun k => ?_) (fun j => jobStep_refl (.inl (hend j)) (.inl hg)) h.fetchers
    by_cases hk : k = i
    · subst hk
      have hlt : k < s.cmds.length := (List.getElem?_eq_some_iff.1 hc).1
      exact .inr ⟨c, ph, hc, by simp [setPhase, hlt], hp⟩
    · have : (setPhase s i c ph).cmds[k]? = s.cmds[k]? := by
        simp only [setPhase, List.getElem?_set_ne (Ne.symm hk)]
      rw [this]
      exact cmdStep_refl (.inl (hoth k hk).1) (.inl (hoth k hk).2)

theorem reply_over {i : Nat} {l2 : CLog} {x : CEv × List COut} (hx : IsReply i x.1) (h : x.2 = [] → ∀ ct, x.1 ≠ .data i ct)
    (hp : PhaseIs i l2 .waiting) : PhaseIs i (l2 ++ [x]) .over :=
  ⟨l2, x, [], rfl, hp, hx, fun h1 ⟨ct, h2⟩ => absurd h2 (h h1 ct)⟩

theorem verdict_over {i : Nat} {l2 : CLog} {x : CEv × List COut} {ct : Bytes} (hx : IsVerdict i x.1)
    (hp : PhaseIs i l2 (.validating ct)) : PhaseIs i (l2 ++ [x]) .over := by
  obtain ⟨m1, m2, rfl, hr, hv⟩ := hp
  exact ⟨m1, (.data i ct, []), m2 ++ [x], by simp, hr, .inl ⟨ct, rfl⟩, fun _ _ => ⟨x, by simp, hx⟩⟩

/-! ### The end of a fetch -/

def finish (s : Ctl) (j : Nat) (x : Job) (cb : Option COut) (destroys : Bool) : List COut × Ctl :=
  let s1 := { s with jobs := s.jobs.set j { x with running := false } }
  match cb with
  | some o =>
    let q := (if destroys then s1.destroyed else s1).eraseFetcher j
    (o :: q.1, q.2)
  | none => s1.eraseFetcher j

/-- How a running fetch ends. -/
theorem end_forms {s : Ctl} {j : Nat} {x : Job} (hj : s.jobs[j]? = some x) (hr : x.running = true) (e : CEv) (he : IsEnd j e) :
    (∃ cb destroys, s.step e = finish s j x cb destroys ∧
      (destroys = true → ((∃ p, e = .complete j p true) ∨ ∃ c, e = .error j c true)) ∧
      (((∃ p, e = .complete j p true) ∨ ∃ c, e = .error j c true) → destroys = true) ∧
      (∀ o, cb = some o → (∃ r, o = .result j r) ∨ ∃ n, o = .failed j n)) ∨
    (∃ o, (o = .escaped ∨ o = .ub) ∧ s.step e = ([o], { s with jobs := s.jobs.set j { x with running := false } })) := by
  rcases he with ⟨p, d, rfl⟩ | ⟨c, d, rfl⟩
  · simp only [Ctl.step, hj, hr, Bool.not_true, Bool.false_eq_true, if_false]
    cases hp : x.dataset.parse p with
    | ok r =>
      refine .inl ⟨if x.onSuccess then some (.result j r) else none, d, ?_, ?_, ?_, ?_⟩
      · by_cases hb : x.onSuccess = true <;> simp [finish, hb]
      · rintro rfl; exact .inl ⟨p, rfl⟩
      · rintro (⟨p', h⟩ | ⟨c, h⟩) <;> cases h; rfl
      · intro o ho
        split at ho <;> cases ho
        exact .inl ⟨r, rfl⟩
    | tlvError =>
      refine .inl ⟨if x.onFailure then some (.failed j errorServer) else none, d, ?_, ?_, ?_, ?_⟩
      · by_cases hb : x.onFailure = true <;> simp [finish, hb]
      · rintro rfl; exact .inl ⟨p, rfl⟩
      · rintro (⟨p', h⟩ | ⟨c, h⟩) <;> cases h; rfl
      · intro o ho
        split at ho <;> cases ho
        exact .inr ⟨_, rfl⟩
    | invalidArgument => exact .inr ⟨.escaped, .inl rfl, rfl⟩
    | ub => exact .inr ⟨.ub, .inr rfl, rfl⟩
  · simp only [Ctl.step, hj, hr, Bool.not_true, Bool.false_eq_true, if_false]
    refine .inl ⟨if x.onFailure then (fetchError c).map (.failed j) else none, d, ?_, ?_, ?_, ?_⟩
    · by_cases hb : x.onFailure = true
      · simp only [hb, if_true]
        cases fetchError c <;> simp [finish, hb]
      · simp [finish, hb]
    · rintro rfl; exact .inr ⟨c, rfl⟩
    · rintro (⟨p', h⟩ | ⟨c, h⟩) <;> cases h; rfl
    · intro o ho
      split at ho
      · cases hf : fetchError c with
        | none => rw [hf] at ho; cases ho
        | some n => rw [hf] at ho; cases ho; exact .inr ⟨n, rfl⟩
      · cases ho

theorem running_alive {l : CLog} {s : Ctl} (h : CInv l s) {j : Nat} {x : Job} (hj : s.jobs[j]? = some x) (hr : x.running = true) :
    s.alive = true := by
  have := h.job j
  rw [hj] at this
  obtain ⟨_, _, _, _, _, _, _, hp⟩ := this
  exact h.alive.2 (hp.1 hr).1

theorem destroyed_jobs (s : Ctl) (j : Nat) : s.destroyed.jobs[j]? =
    (s.jobs[j]?).map fun x => if j ∈ s.fetchers then { x with running := false } else x := by
  simp [Ctl.destroyed]

/-- Jobs of a destroyed Controller. -/
theorem jobStep_destroyed {s : Ctl} (hf : ∀ j y, s.jobs[j]? = some y → y.running = true → j ∈ s.fetchers) {x : CEv × List COut}
    (hg : Gone [x]) (j : Nat) : JobStep j x s.jobs[j]? s.destroyed.jobs[j]? := by
  rw [destroyed_jobs]
  cases hy : s.jobs[j]? with
  | none => exact .inl ⟨rfl, rfl⟩
  | some y =>
    refine .inr ⟨y, false, rfl, ?_, by simp [hg]⟩
    simp only [Option.map_some]
    split
    · rfl
    · rename_i hn
      have : y.running = false := by
        cases hr : y.running with
        | false => rfl
        | true => exact absurd (hf j y hy hr) hn
      rw [← this]

theorem destroyed_not_running {s : Ctl} (hf : ∀ j y, s.jobs[j]? = some y → y.running = true → j ∈ s.fetchers) (j : Nat) (y : Job)
    (h : s.destroyed.jobs[j]? = some y) : y.running = false := by
  rw [destroyed_jobs] at h
  cases hy : s.jobs[j]? with
  | none => rw [hy] at h; cases h
  | some z =>
    rw [hy] at h
    simp only [Option.map_some, Option.some.injEq] at h
    split at h
    · rw [← h]
    · rename_i hn
      subst h
      cases hr : z.running with
      | false => rfl
      | true => exact absurd (hf j z hy hr) hn

theorem jobStep_trans {j : Nat} {x : CEv × List COut} {o o' o'' : Option Job} (h : ∀ c, o = some c → ∃ r, o' = some { c with running := r } ∧
    (r = true → c.running = true) ∧ (c.running = true → ¬ IsEnd j x.1 → r = true))
    (hn : o = none → o' = none) (h2 : JobStep j x o' o'') : JobStep j x o o'' := by
  cases o with
  | none =>
    rw [hn rfl] at h2
    rcases h2 with ⟨-, h2⟩ | ⟨c, r, h2, -⟩
    · exact .inl ⟨rfl, h2⟩
    · cases h2
  | some c =>
    obtain ⟨r, h1, h3, h4⟩ := h c rfl
    rw [h1] at h2
    rcases h2 with ⟨h2, -⟩ | ⟨c', r', h2, h5, h6⟩
    · cases h2
    · cases h2
      refine .inr ⟨c, r', rfl, h5, ?_⟩
      rw [h6]
      constructor
      · rintro ⟨g1, g2⟩; exact ⟨h3 g1, g2⟩
      · rintro ⟨g1, g2⟩; exact ⟨h4 g1 g2.1, g2⟩

theorem inv_end {l : CLog} {s : Ctl} (h : CInv l s) {j : Nat} {y : Job} (hj : s.jobs[j]? = some y) (hr : y.running = true) (e : CEv)
    (he : IsEnd j e) : CInv (l ++ [(e, (s.step e).1)]) (s.step e).2 := by
  have hna := no_asks (s := s) (e := e) (by rintro c pfx p onS onF rfl; simp [IsEnd] at he)
  have hnf := no_fetches (s := s) (e := e) (by rintro c pfx onS onF rfl; simp [IsEnd] at he)
  have hal := running_alive h hj hr
  have hlt : j < s.jobs.length := (List.getElem?_eq_some_iff.1 hj).1
  have hcmd : ∀ os i, CmdStep i (e, os) s.cmds[i]? s.cmds[i]? := by
    intro os i
    refine cmdStep_refl (.inl ?_) (.inl ?_)
    · rintro (⟨ct, hh⟩ | hh | hh) <;> (dsimp only at hh; subst hh; simp [IsEnd] at he)
    · rintro (hh | hh) <;> (dsimp only at hh; subst hh; simp [IsEnd] at he)
  have hend : ∀ k, IsEnd k e → k = j := by
    rintro k (⟨p, d, rfl⟩ | ⟨p, d, rfl⟩) <;> simp [IsEnd] at he <;> exact he
  have hnd : e ≠ .destroy := by rintro rfl; simp [IsEnd] at he
  -- after the fetcher stopped
  have hset : ∀ os, ¬ Gone [(e, os)] → ∀ k, JobStep k (e, os) s.jobs[k]? (s.jobs.set j { y with running := false })[k]? := by
    intro os hg k
    by_cases hk : k = j
    · subst hk
      exact .inr ⟨y, false, hj, by simp [hlt], by simp [he]⟩
    · rw [List.getElem?_set_ne (Ne.symm hk)]
      exact jobStep_refl (.inl fun hh => hk (hend k hh)) (.inl hg)
  have hf1 : ∀ k z, (s.jobs.set j { y with running := false })[k]? = some z → z.running = true → k ∈ s.fetchers ∧ k ≠ j := by
    intro k z hz hzr
    by_cases hk : k = j
    · subst hk
      simp only [List.getElem?_set_self hlt, Option.some.injEq] at hz
      subst hz; cases hzr
    · rw [List.getElem?_set_ne (Ne.symm hk)] at hz
      exact ⟨h.fetchers k z hz hzr, hk⟩
  rcases end_forms hj hr e he with ⟨cb, destroys, hs, hd1, hd2, hcb⟩ | ⟨o, ho, hs⟩
  · rw [hs] at hna hnf ⊢
    cases cb with
    | none =>
      have hfin : finish s j y none destroys =
          ([], { s with jobs := s.jobs.set j { y with running := false }, fetchers := s.fetchers.filter (· ≠ j) }) := by
        simp [finish, Ctl.eraseFetcher, hal]
      rw [hfin] at hna hnf ⊢
      have hg : ¬ Gone [(e, ([] : List COut))] := by
        apply not_gone_out hnd
        rintro k (⟨r, hh⟩ | ⟨r, hh⟩) <;> cases hh
      refine inv_step h _ hna hnf (by simp [hg]) (hcmd _) (hset _ hg) ?_
      intro k z hz hzr
      have := hf1 k z hz hzr
      simp [this.1, this.2]
    | some o =>
      cases destroys with
      | false =>
        have hfin : finish s j y (some o) false =
            ([o], { s with jobs := s.jobs.set j { y with running := false }, fetchers := s.fetchers.filter (· ≠ j) }) := by
          simp [finish, Ctl.eraseFetcher, hal]
        rw [hfin] at hna hnf ⊢
        have hg : ¬ Gone [(e, [o])] := by
          refine not_gone hnd ?_ ?_
          · rintro k p rfl
            have := hend k (.inl ⟨p, true, rfl⟩)
            subst this
            have := hd2 (.inl ⟨p, rfl⟩); cases this
          · rintro k p rfl
            have := hend k (.inr ⟨p, true, rfl⟩)
            subst this
            have := hd2 (.inr ⟨p, rfl⟩); cases this
        refine inv_step h _ hna hnf (by simp [hg]) (hcmd _) (hset _ hg) ?_
        intro k z hz hzr
        have := hf1 k z hz hzr
        simp [this.1, this.2]
      | true =>
        have hfin : finish s j y (some o) true =
            ([o, .ub], Ctl.destroyed { s with jobs := s.jobs.set j { y with running := false } }) := by
          simp [finish, Ctl.eraseFetcher, Ctl.destroyed]
        rw [hfin] at hna hnf ⊢
        have hg : Gone [(e, [o, .ub])] := by
          refine ⟨_, List.mem_singleton_self _, .inr ⟨j, hd1 rfl, ?_⟩⟩
          rcases hcb o rfl with ⟨r, rfl⟩ | ⟨n, rfl⟩
          · exact .inl ⟨r, by simp⟩
          · exact .inr ⟨n, by simp⟩
        have hf2 : ∀ k z, ({ s with jobs := s.jobs.set j { y with running := false } } : Ctl).jobs[k]? = some z → z.running = true →
            k ∈ ({ s with jobs := s.jobs.set j { y with running := false } } : Ctl).fetchers := fun k z hz hzr => (hf1 k z hz hzr).1
        refine inv_step h _ hna hnf (by simp [hg, Ctl.destroyed]) (hcmd _) (fun k => ?_) ?_
        · refine jobStep_trans ?_ ?_ (jobStep_destroyed hf2 hg k)
          · intro c hc
            by_cases hk : k = j
            · subst hk
              rw [hj] at hc; cases hc
              exact ⟨false, by simp [hlt], by simp, fun _ hn => absurd he hn⟩
            · refine ⟨c.running, ?_, fun h => h, fun h _ => h⟩
              show (s.jobs.set j { y with running := false })[k]? = _
              rw [List.getElem?_set_ne (Ne.symm hk), hc]
          · intro hc
            have hk : k ≠ j := by rintro rfl; rw [hj] at hc; cases hc
            show (s.jobs.set j { y with running := false })[k]? = _
            rw [List.getElem?_set_ne (Ne.symm hk), hc]
        · intro k z hz hzr
          have := destroyed_not_running hf2 k z hz
          rw [this] at hzr; cases hzr
  · rw [hs] at hna hnf ⊢
    have hg : ¬ Gone [(e, [o])] := by
      apply not_gone_out hnd
      rintro k (⟨r, hh⟩ | ⟨r, hh⟩) <;> (simp only [List.mem_singleton] at hh; subst hh; simp at ho)
    refine inv_step h _ hna hnf (by simp [hg]) (hcmd _) (hset _ hg) ?_
    intro k z hz hzr
    exact (hf1 k z hz hzr).1

/-- An event that does nothing and is not about a command. -/
theorem inv_idle {l : CLog} {s : Ctl} (h : CInv l s) (e : CEv) (os : List COut) (hs : s.step e = (os, s)) (hns : ∀ i, ¬ Asks i (e, os))
    (hnf : ∀ i, ¬ Fetches i (e, os)) (hr : ∀ i, ¬ IsReply i e) (hv : ∀ i, ¬ IsVerdict i e) (hg : Gone [(e, os)] → s.alive = false)
    (hend : ∀ j, IsEnd j e → ∀ c, s.jobs[j]? = some c → c.running = false) :
    CInv (l ++ [(e, (s.step e).1)]) (s.step e).2 := by
  rw [hs]
  refine inv_step h _ hns hnf ?_ (fun i => cmdStep_refl (.inl (hr i)) (.inl (hv i))) (fun j => jobStep_refl ?_ ?_) h.fetchers
  · constructor
    · intro ha; exact ⟨ha, fun g => by rw [hg g] at ha; cases ha⟩
    · exact fun h => h.1
  · by_cases hj : IsEnd j e
    · exact .inr (hend j hj)
    · exact .inl hj
  · by_cases hj : Gone [(e, os)]
    · refine .inr fun c hc => ?_
      cases hcr : c.running with
      | false => rfl
      | true => have := running_alive h hc hcr; rw [hg hj] at this; cases this
    · exact .inl hj

theorem inv_next {l : CLog} {s : Ctl} (h : CInv l s) (e : CEv) : CInv (l ++ [(e, (s.step e).1)]) (s.step e).2 := by
  cases e with
  | start c pfx p onS onF =>
    by_cases ha : ∃ i n, .asked i n ∈ (s.step (.start c pfx p onS onF)).1
    · obtain ⟨i, n, hn⟩ := ha
      obtain ⟨hal, hi, c', pfx', p', onS', onF', he, hcr, hs⟩ := asks_only hn
      cases he
      have hgx : ¬ Gone [((CEv.start c pfx p onS onF), [COut.asked i n])] := not_gone (by simp) (by simp) (by simp)
      rw [hs]
      refine ⟨?_, fun k => ?_, fun j => ?_, h.fetchers⟩
      · rw [gone_snoc, not_or]
        simp only [hgx, not_false_eq_true, and_true]
        exact h.alive
      · by_cases hk : k = i
        · have hno := h.cmd i
          rw [hi, List.getElem?_eq_none (Nat.le_refl _), ← hi] at hno
          subst hk
          simp only [hi, List.getElem?_concat_length]
          rw [← hi]
          exact ⟨l, pfx, p, n, [], rfl, hno, (fun _ h => by cases h), (fun _ h => by cases h)⟩
        · have : (s.cmds ++ [(⟨c, onS, onF, .waiting⟩ : Cmd)])[k]? = s.cmds[k]? := by
            by_cases hlt : k < s.cmds.length
            · rw [List.getElem?_append_left hlt]
            · rw [List.getElem?_eq_none (by simp only [List.length_append, List.length_singleton]; omega), List.getElem?_eq_none (by omega)]
          simp only [this]
          refine cmd_snoc (h.cmd k) ?_ (.inl ?_) (.inl ?_)
          · rintro ⟨n', hn'⟩
            simp only [List.mem_singleton, COut.asked.injEq] at hn'
            exact hk hn'.1
          · simp [IsReply]
          · simp [IsVerdict]
      · refine job_snoc (h.job j) ?_ (.inl ?_) (.inl hgx)
        · simp [Fetches]
        · simp [IsEnd]
    · have hs : s.step (.start c pfx p onS onF) = ((s.step (.start c pfx p onS onF)).1, s) := by
        simp only [Ctl.step] at ha ⊢
        repeat' split
        · rfl
        · rfl
        · rename_i n hn
          exfalso
          refine ha ⟨s.cmds.length, n, ?_⟩
          simp_all
      refine inv_idle h _ _ hs (fun i hi => ha ⟨i, hi⟩) (no_fetches (by simp)) (by simp [IsReply]) (by simp [IsVerdict])
        (fun hg => absurd hg (not_gone (by simp) (by simp) (by simp))) (by simp [IsEnd])
  | fetch d pfx onS onF =>
    by_cases ha : ∃ i n, .fetching i n ∈ (s.step (.fetch d pfx onS onF)).1
    · obtain ⟨j, n, hn⟩ := ha
      obtain ⟨hal, hj, d', pfx', onS', onF', he, hcr, hs⟩ := fetches_only hn
      cases he
      have hgx : ¬ Gone [((CEv.fetch d pfx onS onF), [COut.fetching j n])] := not_gone (by simp) (by simp) (by simp)
      rw [hs]
      refine ⟨?_, fun k => ?_, fun k => ?_, ?_⟩
      · rw [gone_snoc, not_or]
        simp only [hgx, not_false_eq_true, and_true]
        exact h.alive
      · refine cmd_snoc (h.cmd k) ?_ (.inl ?_) (.inl ?_)
        · simp [Asks]
        · simp [IsReply]
        · simp [IsVerdict]
      · by_cases hk : k = j
        · have hno := h.job j
          rw [hj, List.getElem?_eq_none (Nat.le_refl _), ← hj] at hno
          subst hk
          simp only [hj, List.getElem?_concat_length]
          rw [← hj]
          refine ⟨l, pfx, n, [], rfl, hno, (fun _ h => by cases h), ?_⟩
          simp only [true_iff]
          refine ⟨?_, (fun _ h => by cases h)⟩
          rw [gone_snoc, not_or]
          exact ⟨h.alive.1 hal, hgx⟩
        · have : (s.jobs ++ [(⟨d, onS, onF, true⟩ : Job)])[k]? = s.jobs[k]? := by
            by_cases hlt : k < s.jobs.length
            · rw [List.getElem?_append_left hlt]
            · rw [List.getElem?_eq_none (by simp only [List.length_append, List.length_singleton]; omega), List.getElem?_eq_none (by omega)]
          simp only [this]
          refine job_snoc (h.job k) ?_ (.inl ?_) (.inl hgx)
          · rintro ⟨n', hn'⟩
            simp only [List.mem_singleton, COut.fetching.injEq] at hn'
            exact hk hn'.1
          · simp [IsEnd]
      · intro k y hy hyr
        by_cases hlt : k < s.jobs.length
        · simp only [List.getElem?_append_left hlt] at hy
          exact List.mem_cons_of_mem _ (h.fetchers k y hy hyr)
        · have : k < (s.jobs ++ [(⟨d, onS, onF, true⟩ : Job)]).length := (List.getElem?_eq_some_iff.1 hy).1
          simp only [List.length_append, List.length_singleton] at this
          have : k = s.jobs.length := by omega
          subst this; exact List.mem_cons_self ..
    · have hs : s.step (.fetch d pfx onS onF) = ((s.step (.fetch d pfx onS onF)).1, s) := by
        simp only [Ctl.step] at ha ⊢
        split
        · rfl
        · exfalso
          refine ha ⟨s.jobs.length, d.name pfx, ?_⟩
          simp_all
      refine inv_idle h _ _ hs (no_asks (by simp)) (fun i hi => ha ⟨i, hi⟩) (by simp [IsReply]) (by simp [IsVerdict])
        (fun hg => absurd hg (not_gone (by simp) (by simp) (by simp))) (by simp [IsEnd])
  | destroy =>
    have hg : Gone [(CEv.destroy, ([] : List COut))] := ⟨_, List.mem_singleton_self _, .inl rfl⟩
    cases ha : s.alive with
    | false =>
      have hs : s.step .destroy = ([], s) := by simp [Ctl.step, ha]
      refine inv_idle h _ _ hs (by simp [Asks]) (by simp [Fetches]) (by simp [IsReply]) (by simp [IsVerdict]) (fun _ => ha) (by simp [IsEnd])
    | true =>
      have hs : s.step .destroy = ([], s.destroyed) := by simp [Ctl.step, ha]
      rw [hs]
      refine inv_step h _ (by simp [Asks]) (by simp [Fetches]) (by simp [hg, Ctl.destroyed]) (fun i => ?_)
        (jobStep_destroyed h.fetchers hg) ?_
      · exact cmdStep_refl (.inl (by simp [IsReply])) (.inl (by simp [IsVerdict]))
      · intro k z hz hzr
        rw [destroyed_not_running h.fetchers k z hz] at hzr; cases hzr
  | complete j p d =>
    by_cases hj : ∃ y, s.jobs[j]? = some y ∧ y.running = true
    · obtain ⟨y, hj, hr⟩ := hj
      exact inv_end h hj hr _ (.inl ⟨p, d, rfl⟩)
    · have hs : s.step (.complete j p d) = ([], s) := by
        simp only [Ctl.step]
        cases hy : s.jobs[j]? with
        | none => rfl
        | some y =>
          have : y.running = false := by
            cases hr : y.running with
            | false => rfl
            | true => exact absurd ⟨y, hy, hr⟩ hj
          simp [this]
      refine inv_idle h _ _ hs (by simp [Asks]) (by simp [Fetches]) (by simp [IsReply]) (by simp [IsVerdict])
        (fun hg => absurd hg (not_gone_out (by simp) (by simp [CalledBack]))) ?_
      rintro k hk c hc
      have : k = j := by
        rcases hk with ⟨_, _, hk⟩ | ⟨_, _, hk⟩ <;> cases hk; rfl
      subst this
      cases hr : c.running with
      | false => rfl
      | true => exact absurd ⟨c, hc, hr⟩ hj
  | error j p d =>
    by_cases hj : ∃ y, s.jobs[j]? = some y ∧ y.running = true
    · obtain ⟨y, hj, hr⟩ := hj
      exact inv_end h hj hr _ (.inr ⟨p, d, rfl⟩)
    · have hs : s.step (.error j p d) = ([], s) := by
        simp only [Ctl.step]
        cases hy : s.jobs[j]? with
        | none => rfl
        | some y =>
          have : y.running = false := by
            cases hr : y.running with
            | false => rfl
            | true => exact absurd ⟨y, hy, hr⟩ hj
          simp [this]
      refine inv_idle h _ _ hs (by simp [Asks]) (by simp [Fetches]) (by simp [IsReply]) (by simp [IsVerdict])
        (fun hg => absurd hg (not_gone_out (by simp) (by simp [CalledBack]))) ?_
      rintro k hk c hc
      have : k = j := by
        rcases hk with ⟨_, _, hk⟩ | ⟨_, _, hk⟩ <;> cases hk; rfl
      subst this
      cases hr : c.running with
      | false => rfl
      | true => exact absurd ⟨c, hc, hr⟩ hj
  | data i ct =>
    refine inv_cmd h _ i (.inl ⟨ct, rfl⟩) ?_
    cases hc : s.cmds[i]? with
    | none => exact .inl ⟨by simp [Ctl.step, hc], (fun _ _ h => by cases h), (fun _ _ h => by cases h)⟩
    | some c =>
      by_cases hp : c.phase = .waiting
      · refine .inr ⟨c, if s.alive then .validating ct else .over, rfl, ?_, ?_⟩
        · simp only [Ctl.step, hc, hp, if_true]
          cases s.alive <;> rfl
        · intro l2 hl
          rw [hp] at hl
          cases ha : s.alive with
          | true =>
            have : (s.step (.data i ct)).1 = [] := by simp [Ctl.step, hc, hp, ha]
            rw [this]
            exact ⟨l2, [], rfl, hl, (fun _ h => by cases h)⟩
          | false =>
            have : (s.step (.data i ct)).1 = [.ub] := by simp [Ctl.step, hc, hp, ha]
            rw [this]
            exact reply_over (.inl ⟨ct, rfl⟩) (by simp) hl
      · refine .inl ⟨by simp [Ctl.step, hc, hp], ?_, by simp [IsVerdict]⟩
        intro _ c' hc'; cases hc'; exact hp
  | nack i =>
    refine inv_cmd h _ i (.inr (.inl rfl)) ?_
    cases hc : s.cmds[i]? with
    | none => exact .inl ⟨by simp [Ctl.step, hc], (fun _ _ h => by cases h), (fun _ _ h => by cases h)⟩
    | some c =>
      by_cases hp : c.phase = .waiting
      · refine .inr ⟨c, .over, rfl, by simp [Ctl.step, hc, hp], ?_⟩
        intro l2 hl
        rw [hp] at hl
        exact reply_over (.inr (.inl rfl)) (by simp) hl
      · refine .inl ⟨by simp [Ctl.step, hc, hp], ?_, by simp [IsVerdict]⟩
        intro _ c' hc'; cases hc'; exact hp
  | timeout i =>
    refine inv_cmd h _ i (.inr (.inr (.inl rfl))) ?_
    cases hc : s.cmds[i]? with
    | none => exact .inl ⟨by simp [Ctl.step, hc], (fun _ _ h => by cases h), (fun _ _ h => by cases h)⟩
    | some c =>
      by_cases hp : c.phase = .waiting
      · refine .inr ⟨c, .over, rfl, by simp [Ctl.step, hc, hp], ?_⟩
        intro l2 hl
        rw [hp] at hl
        exact reply_over (.inr (.inr rfl)) (by simp) hl
      · refine .inl ⟨by simp [Ctl.step, hc, hp], ?_, by simp [IsVerdict]⟩
        intro _ c' hc'; cases hc'; exact hp
  | valid i =>
    refine inv_cmd h _ i (.inr (.inr (.inr (.inl rfl)))) ?_
    cases hc : s.cmds[i]? with
    | none => exact .inl ⟨by simp [Ctl.step, hc], (fun _ _ h => by cases h), (fun _ _ h => by cases h)⟩
    | some c =>
      by_cases hp : ∃ ct, c.phase = .validating ct
      · obtain ⟨ct, hp⟩ := hp
        refine .inr ⟨c, .over, rfl, by simp [Ctl.step, hc, hp], ?_⟩
        intro l2 hl
        rw [hp] at hl
        exact verdict_over (.inl rfl) hl
      · refine .inl ⟨?_, by simp [IsReply], ?_⟩
        · simp only [Ctl.step, hc]
          split
          · rename_i ct hct; exact absurd ⟨ct, hct⟩ hp
          · rfl
        · intro _ c' hc' ct hct; cases hc'; exact hp ⟨ct, hct⟩
  | invalid i =>
    refine inv_cmd h _ i (.inr (.inr (.inr (.inr rfl)))) ?_
    cases hc : s.cmds[i]? with
    | none => exact .inl ⟨by simp [Ctl.step, hc], (fun _ _ h => by cases h), (fun _ _ h => by cases h)⟩
    | some c =>
      by_cases hp : ∃ ct, c.phase = .validating ct
      · obtain ⟨ct, hp⟩ := hp
        refine .inr ⟨c, .over, rfl, by simp [Ctl.step, hc, hp], ?_⟩
        intro l2 hl
        rw [hp] at hl
        exact verdict_over (.inr rfl) hl
      · refine .inl ⟨?_, by simp [IsReply], ?_⟩
        · simp only [Ctl.step, hc]
          split
          · rename_i ct hct; exact absurd ⟨ct, hct⟩ hp
          · rfl
        · intro _ c' hc' ct hct; cases hc'; exact hp ⟨ct, hct⟩

end Ndn.Nfd
