import Verif.Face.Deliver
/-
Soundness of the callbacks of pending Interests (C47, C48), for every history.
-/
namespace Ndn.Face
open Spec
variable {I D : Type} {E : Env I D}

/-! ### Soundness of the outcomes, for every history -/

/-- What a callback tells is true. -/
def SoundObs (E : Env I D) (log : List (Obs I D)) : Obs I D → Prop
  | .data id i d => (∃ t, Obs.expressed id i t ∈ log) ∧ E.matchesData i d = true ∧ (Obs.gotData d ∈ log ∨ Obs.putData d ∈ log)
  | .nack id i _ => ∃ t, Obs.expressed id i t ∈ log
  | .timeout id i t => ∃ t0, Obs.expressed id i t0 ∈ log ∧ t0 + E.lifetime i ≤ t
  | _ => True

theorem soundObs_mono {log δ : List (Obs I D)} {o : Obs I D} (h : SoundObs E log o) : SoundObs E (log ++ δ) o := by
  cases o <;> simp only [SoundObs] at h ⊢
  · obtain ⟨⟨t, h1⟩, h2, h3⟩ := h
    refine ⟨⟨t, by simp [h1]⟩, h2, ?_⟩
    rcases h3 with h3 | h3 <;> simp [h3]
  · obtain ⟨t, h1⟩ := h
    exact ⟨t, by simp [h1]⟩
  · obtain ⟨t, h1, h2⟩ := h
    exact ⟨t, by simp [h1], h2⟩

def Sound (E : Env I D) (log : List (Obs I D)) : Prop :=
  ∀ pre o post, log = pre ++ o :: post → SoundObs E pre o

theorem sound_append {log δ : List (Obs I D)} (h : Sound E log)
    (hδ : ∀ k o post, δ = k ++ o :: post → SoundObs E (log ++ k) o) : Sound E (log ++ δ) := by
  intro pre o post hab
  rcases split_occ hab with ⟨k, hk⟩ | ⟨k, hk1, hk⟩
  · exact h pre o k hk
  · rw [hk1]; exact hδ k o post hk

theorem pit_app_expressed {s : St I D} (hA : InvA E s) {e : Entry I} (he : e ∈ s.pit) (ha : e.app = true) :
    ∃ t, Obs.expressed e.id e.interest t ∈ s.log ∧ e.expiry = t + E.lifetime e.interest := by
  obtain ⟨t, _, hc, hx⟩ := hA.cre e he
  unfold creation at hc
  rw [if_pos ha] at hc
  exact ⟨t, hc, hx⟩

theorem nackLoop_log_app (n : Nack I) (boom : Nat → Bool) (es : List (Entry I)) :
    ∀ o ∈ (nackLoop (D := D) E n boom es).log, o = .nackCount ∨
      ∃ e ∈ es, e.app = true ∧ ∃ m, o = .nack e.id e.interest m := by
  have hc : ∀ b : Bool, ∀ o ∈ (countObs b : List (Obs I D)), o = .nackCount := by
    intro b o ho
    cases b <;> simp [countObs] at ho
    exact ho
  induction es with
  | nil => simp [nackLoop]
  | cons e es ih =>
    intro o ho
    have tl : o ∈ (nackLoop (D := D) E n boom es).log → o = .nackCount ∨
      ∃ x ∈ e :: es, x.app = true ∧ ∃ m, o = .nack x.id x.interest m := by
      intro h
      rcases ih o h with h | ⟨x, hx, h⟩
      · exact Or.inl h
      · exact Or.inr ⟨x, by simp [hx], h⟩
    simp only [nackLoop] at ho
    split at ho
    · exact tl ho
    · split at ho
      · rcases List.mem_append.1 ho with h | h
        · exact Or.inl (hc _ _ h)
        · exact tl h
      · split at ho
        · rename_i ha
          split at ho
          · rcases List.mem_append.1 ho with h | h
            · exact Or.inl (hc _ _ h)
            · simp at h
              exact Or.inr ⟨e, by simp, ha, _, h⟩
          · rcases List.mem_append.1 ho with h | h
            · exact Or.inl (hc _ _ h)
            · rcases List.mem_cons.1 h with h | h
              · exact Or.inr ⟨e, by simp, ha, _, h⟩
              · exact tl h
        · rcases List.mem_append.1 ho with h | h
          · exact Or.inl (hc _ _ h)
          · exact tl h

/-- Not an outcome of any Interest. -/
def noOut : Obs I D → Bool
  | .data _ _ _ | .nack _ _ _ | .timeout _ _ _ => false
  | _ => true

theorem noOut_sound {log : List (Obs I D)} {o : Obs I D} (h : noOut o = true) : SoundObs E log o := by
  cases o <;> simp [noOut] at h <;> trivial

theorem sound_quiet {log δ : List (Obs I D)} (h : Sound E log) (hδ : ∀ o ∈ δ, noOut o = true) : Sound E (log ++ δ) := by
  apply sound_append h
  intro k o post hk
  exact noOut_sound (hδ o (by rw [hk]; simp))

/-- Each application-originated record in the table was expressed. -/
def AppExpr (E : Env I D) (s : St I D) : Prop :=
  ∀ e ∈ s.pit, e.app = true → ∃ t, Obs.expressed e.id e.interest t ∈ s.log ∧ e.expiry = t + E.lifetime e.interest

theorem sound_data {s : St I D} (hA : AppExpr E s) (h : Sound E s.log) (o : Obs I D) (d : D)
    (ho : o = .gotData d ∨ o = .putData d) (boom : Nat → Bool) :
    Sound E (s.log ++ o :: (satisfy E d boom s.pit).log) := by
  apply sound_append h
  intro k x post hk
  cases k with
  | nil =>
    simp at hk
    rw [← hk.1]
    rcases ho with rfl | rfl <;> trivial
  | cons y k =>
    simp at hk
    obtain ⟨hy, hk⟩ := hk
    subst hy
    obtain ⟨e, he, ha, hm, rfl⟩ := satisfy_log d boom s.pit x (by rw [hk]; simp)
    obtain ⟨t, h1, _⟩ := hA _ he ha
    refine ⟨⟨t, by simp [h1]⟩, hm, ?_⟩
    rcases ho with rfl | rfl <;> simp

theorem sound_nack {s : St I D} (hA : AppExpr E s) (h : Sound E s.log) (o : Obs I D) (n : Nack I)
    (ho : o = .gotNack n ∨ o = .putNack n) (boom : Nat → Bool) :
    Sound E (s.log ++ o :: (nackLoop (D := D) E n boom s.pit).log) := by
  apply sound_append h
  intro k x post hk
  cases k with
  | nil =>
    simp at hk
    rw [← hk.1]
    rcases ho with rfl | rfl <;> trivial
  | cons y k =>
    simp at hk
    obtain ⟨hy, hk⟩ := hk
    rcases nackLoop_log_app n boom s.pit x (by rw [hk]; simp) with rfl | ⟨e, he, ha, m, rfl⟩
    · trivial
    · obtain ⟨t, h1, _⟩ := hA _ he ha
      exact ⟨t, by simp [h1]⟩

theorem noOut_dup (b : Bool) : ∀ o ∈ (dupObs b : List (Obs I D)), noOut o = true := by
  cases b <;> simp [dupObs, noOut]

theorem noOut_dispatch (boom : Nat → Bool) (e : Entry I) (fs : List (Nat × Filter)) :
    ∀ o ∈ (dispatch (D := D) E boom e fs).2, noOut o = true := by
  intro o ho
  have := inert_dispatch boom e fs o ho
  cases o <;> simp [inert] at this <;> rfl

theorem sound_handle {s : St I D} (hA : AppExpr E s) (h : Sound E s.log) (boom : Nat → Bool) (p : Post I D) :
    Sound E (handle E boom s p).log := by
  cases p with
  | express id i =>
    obtain ⟨e, δ, hs, hc, _, _, hd⟩ := doExpress_shape (E := E) boom s id i
    simp only [handle]
    rw [hs]
    apply sound_quiet h
    intro o ho
    rcases List.mem_cons.1 ho with rfl | ho
    · rfl
    · rcases hd with ⟨_, _, rfl⟩ | ⟨_, _, rfl⟩
      · rcases List.mem_append.1 ho with ho | ho
        · exact noOut_dup _ _ ho
        · simp at ho; subst ho; rfl
      · rcases List.mem_append.1 ho with ho | ho
        · exact noOut_dup _ _ ho
        · rcases List.mem_cons.1 ho with rfl | ho
          · rfl
          · exact noOut_dispatch _ _ _ _ ho
  | cancel id => exact sound_quiet h (by simp [noOut])
  | removeAll => exact sound_quiet h (by simp [noOut])
  | putData d =>
    obtain ⟨δ, hs, hd⟩ := doPutData_shape (E := E) boom s d
    simp only [handle]
    rw [hs]
    exact sound_quiet (sound_data hA h (.putData d) d (Or.inr rfl) boom) (by rcases hd with rfl | rfl | rfl <;> simp [noOut])
  | putNack n =>
    obtain ⟨δ, hs, hd⟩ := doPutNack_shape (E := E) boom s n
    simp only [handle]
    rw [hs]
    exact sound_quiet (sound_nack hA h (.putNack n) n (Or.inr rfl) boom) (by rcases hd with rfl | rfl | ⟨m, rfl⟩ <;> simp [noOut])
  | setFilter fid f =>
    refine sound_quiet h ?_
    intro o ho
    rcases List.mem_cons.1 ho with rfl | ho
    · rfl
    · exact noOut_dup _ _ ho
  | unsetFilter fid => exact sound_quiet h (by simp [noOut])
  | unregister id =>
    obtain ⟨δ, fs, cs, hs, hd⟩ := doUnregister_shape s id
    simp only [handle]
    rw [hs]
    refine sound_quiet h ?_
    rcases hd with ⟨rfl, _⟩ | ⟨r, _, _, _, ⟨_, rfl, _⟩ | ⟨_, rfl, _⟩⟩ <;> simp [noOut]
  | shutdown => exact sound_quiet h (by simp [noOut])

theorem sound_fire {s : St I D} (hA : InvA E s) (h : Sound E s.log) (boom : Nat → Bool) (id : Nat) :
    Sound E (doFire boom s id).log := by
  simp only [doFire]
  split
  · exact h
  · rename_i e he
    have hm := List.mem_of_find?_eq_some he
    have hp := List.find?_some he
    simp only [Bool.and_eq_true, beq_iff_eq, decide_eq_true_eq] at hp
    split
    · rename_i ha
      obtain ⟨t, h1, h2⟩ := pit_app_expressed hA hm ha
      have hs : Sound E (s.log ++ [.timeout id e.interest s.now]) := by
        apply sound_append h
        intro k o post hk
        cases k with
        | nil =>
          simp at hk
          rw [← hk.1]
          refine ⟨t, by rw [← hp.1.1]; simp [h1], by omega⟩
        | cons y k => simp at hk
      split <;> exact hs
    · exact h

theorem sound_step {s : St I D} (hA : InvA E s) (h : Sound E s.log) (op : Op I D) : Sound E (step E s op).log := by
  cases op with
  | express i => exact sound_quiet h (by simp [noOut])
  | cancel id =>
    simp only [step]; split
    · exact sound_quiet h (by simp [noOut])
    · exact h
  | removeAll => exact h
  | putData d => exact h
  | putNack n => exact h
  | setFilter f => exact h
  | unsetFilter fid =>
    simp only [step]; split
    · exact sound_quiet h (by simp [noOut])
    · exact h
  | register pfx f => exact sound_quiet h (by simp [noOut])
  | unregister id =>
    simp only [step]; split
    · exact sound_quiet h (by simp [noOut])
    · exact h
  | shutdown => exact h
  | run boom =>
    simp only [step]
    split
    · exact h
    · rename_i p ps hq
      have : ∀ (s₁ : St I D), s₁.log = s.log → s₁.pit = s.pit → s₁.now = s.now → Sound E (handle E boom s₁ p).log := by
        intro s₁ h1 h2 h3
        apply sound_handle (s := s₁)
        · intro e he ha
          rw [h1]; rw [h2] at he
          exact pit_app_expressed hA he ha
        · rw [h1]; exact h
      exact this _ rfl rfl rfl
  | fire id boom => exact sound_fire hA h boom id
  | recvInterest i boom =>
    obtain ⟨e, δ, hs, hc, _, _, _, hd⟩ := doArrive_shape (E := E) boom s i
    simp only [step]
    rw [hs]
    refine sound_quiet h ?_
    intro o ho
    rcases List.mem_cons.1 ho with rfl | ho
    · rfl
    · rw [hd] at ho
      rcases List.mem_append.1 ho with ho | ho
      · exact noOut_dup _ _ ho
      · exact noOut_dispatch _ _ _ _ ho
  | recvData d boom => exact sound_data (fun e he ha => pit_app_expressed hA he ha) h _ d (Or.inl rfl) boom
  | recvNack n boom => exact sound_nack (fun e he ha => pit_app_expressed hA he ha) h _ n (Or.inl rfl) boom
  | reply k ok =>
    simp only [step, doReply]
    split
    · exact h
    · split
      · split
        · exact sound_quiet h (by simp [noOut])
        · simp only [List.append_assoc, List.cons_append]
          refine sound_quiet h ?_
          intro o ho
          simp only [List.mem_cons, List.mem_append] at ho
          rcases ho with rfl | ho | ho | ho
          · rfl
          · exact noOut_dup _ _ ho
          · subst ho; rfl
          · simp at ho
      · exact sound_quiet h (by simp [noOut])
    · split <;> exact sound_quiet h (by simp [noOut])
  | advance dt => exact h
  | unwind => exact sound_quiet h (by simp [noOut])

theorem sound_run {s : St I D} (hA : InvA E s) (h : Sound E s.log) (ops : List (Op I D)) : Sound E (run E s ops).log := by
  induction ops generalizing s with
  | nil => exact h
  | cons op ops ih => exact ih (invA_step hA op) (sound_step hA h op)

theorem sound_init : Sound E ({} : St I D).log := by intro pre o post h; simp at h

end Ndn.Face
