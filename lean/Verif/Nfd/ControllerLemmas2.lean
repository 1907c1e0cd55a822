import Verif.Nfd.ControllerLemmas
namespace Ndn.Nfd
open Tlv Tlv.Spec Block Block.Spec Name Packet Packet.Spec Mgmt

/-! ### The answer to a command -/

theorem response_safe (o : Obj Response) (b : Raw) : (Response.codec.wireDecode o b).1 ≠ .ub := by
  unfold Codec.wireDecode
  split
  · simp
  · split
    · simp
    · show (Response.fill _ _).1 ≠ .ub
      unfold Response.fill
      (repeat' split) <;> simp

theorem holdsResponse_iff (content : Bytes) (r : Response) : HoldsResponse content r ↔
    ∃ b, blockFromValue content = some b ∧ Response.codec.wireDecode ⟨none, {}⟩ b = (.ok, ⟨some b, r⟩) := by
  constructor
  · rintro ⟨b, rfl, hw, ht, hm⟩
    exact ⟨b, blockFromValue_iff.2 ⟨rfl, hw⟩, (wireDecode_iff _ _ Response.sound.fill _ _ _).2 ⟨rfl, ht, hm⟩⟩
  · rintro ⟨b, hb, hd⟩
    obtain ⟨rfl, hw⟩ := blockFromValue_iff.1 hb
    obtain ⟨-, ht, hm⟩ := (wireDecode_iff _ _ Response.sound.fill _ _ _).1 hd
    exact ⟨b, rfl, hw, ht, hm⟩

theorem holdsResponse_unique {content : Bytes} {r r' : Response} (h : HoldsResponse content r) (h' : HoldsResponse content r') : r = r' := by
  obtain ⟨b, h1, h2⟩ := (holdsResponse_iff ..).1 h
  obtain ⟨b', h1', h2'⟩ := (holdsResponse_iff ..).1 h'
  rw [h1] at h1'
  cases h1'
  rw [h2] at h2'
  simp only [Prod.mk.injEq, Obj.mk.injEq, true_and] at h2'
  exact h2'

theorem processResponse_reported (c : Cmd) (i : Nat) (content : Bytes) :
    Reported c.command i c.onSuccess c.onFailure content (processResponse c i content) := by
  by_cases hr : ∃ r, HoldsResponse content r
  · obtain ⟨r, hr⟩ := hr
    obtain ⟨b, hb, hd⟩ := (holdsResponse_iff ..).1 hr
    unfold processResponse
    simp only [hb, hd]
    by_cases hc : r.code ≥ errorLBound
    · rw [if_pos hc]
      refine ⟨?_, ?_, ?_⟩
      · rintro p ⟨r', b', h1, h2, -⟩
        cases holdsResponse_unique hr h1
        unfold errorLBound at hc; omega
      · intro r' h1 h2
        cases holdsResponse_unique hr h1
        rfl
      · intro _ h; have := h r hr; unfold errorLBound at hc; omega
    · rw [if_neg hc]
      have hlt : r.code < 400 := by unfold errorLBound at hc; omega
      have hno : ∀ r', HoldsResponse content r' → 400 ≤ r'.code → False := by
        intro r' h1 h2
        cases holdsResponse_unique hr h1
        omega
      have hrep : ∀ p, Reports c.command content p ↔ r.body.bind Params.decode = some p ∧ c.command.validateResponse p = .accept := by
        intro p
        constructor
        · rintro ⟨r', b', h1, h2, h3, h4, h5⟩
          cases holdsResponse_unique hr h1
          exact ⟨by rw [h3]; exact h4, h5⟩
        · rintro ⟨h1, h2⟩
          cases hbd : r.body with
          | none => rw [hbd] at h1; cases h1
          | some b' => rw [hbd] at h1; exact ⟨r, b', hr, hlt, hbd, h1, h2⟩
      cases hp : r.body.bind Params.decode with
      | none =>
        refine ⟨fun p h => ?_, fun r' h1 h2 => (hno r' h1 h2).elim, fun _ _ => rfl⟩
        rw [hrep, hp] at h; cases h.1
      | some p =>
        dsimp only
        cases hv : c.command.validateResponse p with
        | accept =>
          refine ⟨fun p' h => ?_, fun r' h1 h2 => (hno r' h1 h2).elim, fun h _ => ?_⟩
          · rw [hrep, hp] at h; cases h.1; rfl
          · exact absurd ((hrep p).2 ⟨hp, hv⟩) (h p)
        | reject =>
          refine ⟨fun p' h => ?_, fun r' h1 h2 => (hno r' h1 h2).elim, fun h _ => rfl⟩
          rw [hrep, hp] at h; cases h.1; rw [hv] at h; cases h.2
        | ub => exact absurd hv (C63_no_ub c.command p).2
  · have hno : ∀ r, ¬ HoldsResponse content r := fun r h => hr ⟨r, h⟩
    have hout : processResponse c i content = failure c i (.library errorServer) := by
      unfold processResponse
      cases hb : blockFromValue content with
      | none => rfl
      | some b =>
        dsimp only
        have hs := response_safe ⟨none, {}⟩ b
        cases hd : Response.codec.wireDecode ⟨none, {}⟩ b with
        | mk o w =>
          rw [hd] at hs
          cases o with
          | ok =>
            obtain ⟨w1, v⟩ := w
            have := (wireDecode_iff _ _ Response.sound.fill _ _ _).1 hd
            have hw : w1 = some b := this.1
            subst hw
            exact absurd ((holdsResponse_iff ..).2 ⟨b, hb, hd⟩) (hno v)
          | threw => rfl
          | ub => exact absurd rfl hs
    rw [hout]
    exact ⟨fun p h => by obtain ⟨r, _, h, _⟩ := h; exact absurd h (hno r), fun r h => absurd h (hno r), fun _ _ => rfl⟩

/-! ### What steps output -/

theorem failure_outs (c : Cmd) (i : Nat) (f : Failure) (o : COut) (h : o ∈ failure c i f) : o = .failure i f := by
  unfold failure at h
  split at h
  · simpa using h
  · cases h

theorem processResponse_outs (c : Cmd) (i : Nat) (content : Bytes) (o : COut) (h : o ∈ processResponse c i content) :
    (∃ p, o = .success i p) ∨ ∃ f, o = .failure i f := by
  have hs := response_safe ⟨none, {}⟩
  unfold processResponse at h
  repeat' split at h
  all_goals first
    | exact .inr ⟨_, failure_outs _ _ _ _ h⟩
    | (simp only [List.mem_singleton] at h; exact .inl ⟨_, h⟩)
    | cases h; done
    | skip
  · rename_i hv; exact absurd hv (C63_no_ub _ _).2
  · rename_i hd; exact absurd (congrArg Prod.fst hd) (hs _)

theorem erase_outs (s : Ctl) (j : Nat) (o : COut) (h : o ∈ (s.eraseFetcher j).1) : o = .ub := by
  unfold Ctl.eraseFetcher at h
  split at h
  · cases h
  · simpa using h

theorem asks_only {s : Ctl} {e : CEv} {i : Nat} {n : List Comp} (h : .asked i n ∈ (s.step e).1) :
    s.alive = true ∧ i = s.cmds.length ∧ (∃ c pfx p onS onF, e = .start c pfx p onS onF ∧ c.createRequest pfx p = some n ∧
      s.step e = ([.asked i n], { s with cmds := s.cmds ++ [⟨c, onS, onF, .waiting⟩] })) := by
  cases e with
  | start c pfx p onS onF =>
    simp only [Ctl.step] at h ⊢
    cases ha : s.alive with
    | false => simp [ha] at h
    | true =>
      simp only [ha, Bool.not_true, Bool.false_eq_true, if_false] at h ⊢
      cases hc : c.createRequest pfx p with
      | none => simp [hc] at h
      | some n' =>
        simp only [hc, List.mem_singleton, COut.asked.injEq] at h
        obtain ⟨rfl, rfl⟩ := h
        exact ⟨trivial, rfl, c, pfx, p, onS, onF, rfl, hc, by simp [hc]⟩
  | fetch d pfx onS onF => simp only [Ctl.step] at h; split at h <;> simp at h
  | destroy => simp only [Ctl.step] at h; split at h <;> simp at h
  | valid i' =>
    simp only [Ctl.step] at h
    repeat' split at h
    all_goals first
      | (simp only at h; rcases processResponse_outs _ _ _ _ h with ⟨_, h⟩ | ⟨_, h⟩ <;> cases h)
      | simp at h
  | invalid i' =>
    simp only [Ctl.step] at h
    repeat' split at h
    all_goals first
      | (simp only at h; have := failure_outs _ _ _ _ h; cases this; done)
      | simp at h
  | nack i' =>
    simp only [Ctl.step] at h
    repeat' split at h
    all_goals first
      | (simp only at h; have := failure_outs _ _ _ _ h; cases this; done)
      | simp at h
  | timeout i' =>
    simp only [Ctl.step] at h
    repeat' split at h
    all_goals first
      | (simp only at h; have := failure_outs _ _ _ _ h; cases this; done)
      | simp at h
  | data i' ct =>
    simp only [Ctl.step] at h
    repeat' split at h
    all_goals simp at h
  | complete j pl de =>
    simp only [Ctl.step] at h
    repeat' split at h
    all_goals first
      | (simp only [List.mem_cons, reduceCtorEq, false_or] at h; have := erase_outs _ _ _ h; cases this; done)
      | (have := erase_outs _ _ _ h; cases this; done)
      | simp at h
  | error j co de =>
    simp only [Ctl.step] at h
    repeat' split at h
    all_goals first
      | (simp only [List.mem_cons, reduceCtorEq, false_or] at h; have := erase_outs _ _ _ h; cases this; done)
      | (have := erase_outs _ _ _ h; cases this; done)
      | simp at h

theorem fetches_only {s : Ctl} {e : CEv} {j : Nat} {n : List Comp} (h : .fetching j n ∈ (s.step e).1) :
    s.alive = true ∧ j = s.jobs.length ∧ (∃ d pfx onS onF, e = .fetch d pfx onS onF ∧ d.name pfx = n ∧
      s.step e = ([.fetching j n], { s with jobs := s.jobs ++ [⟨d, onS, onF, true⟩], fetchers := s.jobs.length :: s.fetchers })) := by
  cases e with
  | fetch d pfx onS onF =>
    simp only [Ctl.step] at h ⊢
    cases ha : s.alive with
    | false => simp [ha] at h
    | true =>
      simp only [ha, Bool.not_true, Bool.false_eq_true, if_false, List.mem_singleton, COut.fetching.injEq] at h ⊢
      obtain ⟨rfl, rfl⟩ := h
      exact ⟨trivial, rfl, d, pfx, onS, onF, rfl, rfl, rfl⟩
  | start d pfx onS onF =>
    simp only [Ctl.step] at h
    repeat' split at h
    all_goals simp at h
  | destroy => simp only [Ctl.step] at h; split at h <;> simp at h
  | valid i' =>
    simp only [Ctl.step] at h
    repeat' split at h
    all_goals first
      | (simp only at h; rcases processResponse_outs _ _ _ _ h with ⟨_, h⟩ | ⟨_, h⟩ <;> cases h)
      | simp at h
  | invalid i' =>
    simp only [Ctl.step] at h
    repeat' split at h
    all_goals first
      | (simp only at h; have := failure_outs _ _ _ _ h; cases this; done)
      | simp at h
  | nack i' =>
    simp only [Ctl.step] at h
    repeat' split at h
    all_goals first
      | (simp only at h; have := failure_outs _ _ _ _ h; cases this; done)
      | simp at h
  | timeout i' =>
    simp only [Ctl.step] at h
    repeat' split at h
    all_goals first
      | (simp only at h; have := failure_outs _ _ _ _ h; cases this; done)
      | simp at h
  | data i' ct =>
    simp only [Ctl.step] at h
    repeat' split at h
    all_goals simp at h
  | complete j pl de =>
    simp only [Ctl.step] at h
    repeat' split at h
    all_goals first
      | (simp only [List.mem_cons, reduceCtorEq, false_or] at h; have := erase_outs _ _ _ h; cases this; done)
      | (have := erase_outs _ _ _ h; cases this; done)
      | simp at h
  | error j co de =>
    simp only [Ctl.step] at h
    repeat' split at h
    all_goals first
      | (simp only [List.mem_cons, reduceCtorEq, false_or] at h; have := erase_outs _ _ _ h; cases this; done)
      | (have := erase_outs _ _ _ h; cases this; done)
      | simp at h

end Ndn.Nfd
