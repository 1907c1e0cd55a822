import Verif.Fetch.Timer
/- Where received packets come from, and what a stopped fetcher does. -/
namespace Ndn.Fetch
open Spec

def packet : Obs → Bool
  | .received _ | .validated _ => true
  | _ => false

/-- What an event changes; `A`: the signals about packets it may add. -/
structure Fr (A : Obs → Prop) (s t : St) : Prop where
  now : t.now = s.now
  last : t.lastRecv = s.lastRecv ∨ t.lastRecv = s.now
  obs : ∀ o ∈ t.log, packet o = true → o ∈ s.log ∨ A o
  val : ∀ v ∈ t.validating, v ∈ s.validating
  id : s.nextId ≤ t.nextId

theorem Fr.refl {A : Obs → Prop} (s : St) : Fr A s s := ⟨rfl, Or.inl rfl, fun _ h _ => Or.inl h, fun _ h => h, Nat.le_refl _⟩

theorem Fr.trans {A : Obs → Prop} {s t u : St} (h : Fr A s t) (g : Fr A t u) : Fr A s u := by
  refine ⟨g.now.trans h.now, ?_, fun o ho hp => ?_, fun v hv => h.val v (g.val v hv), Nat.le_trans h.id g.id⟩
  · rcases g.last with g1 | g1
    · rw [g1]; exact h.last
    · right; rw [g1, h.now]
  · rcases g.obs o ho hp with h1 | h1
    · exact h.obs o h1 hp
    · exact Or.inr h1

theorem Fr.same {A : Obs → Prop} {s t : St} (h1 : t.now = s.now) (h2 : t.lastRecv = s.lastRecv) (h3 : t.log = s.log) (h4 : t.validating = s.validating)
    (h5 : s.nextId ≤ t.nextId) : Fr A s t :=
  ⟨h1, Or.inl h2, by rw [h3]; exact fun _ h _ => Or.inl h, by rw [h4]; exact fun _ h => h, h5⟩

theorem fr_log {A : Obs → Prop} (s : St) (o : Obs) (ho : packet o = true → A o) : Fr A s { s with log := s.log ++ [o] } := by
  refine ⟨rfl, Or.inl rfl, fun d hd hp => ?_, fun _ h => h, Nat.le_refl _⟩
  rcases List.mem_append.1 hd with h | h
  · exact Or.inl h
  · rw [List.mem_singleton] at h; rw [h] at hp ⊢; exact Or.inr (ho hp)

theorem fr_cancel {A : Obs → Prop} (s : St) (l : List Nat) : Fr A s (cancel s l) := by
  unfold cancel; split <;> exact .same rfl rfl rfl rfl (by simp)

theorem fr_stop {A : Obs → Prop} (s : St) : Fr A s (stop s) := by
  unfold stop; split
  · exact .refl s
  · exact (fr_cancel _ _).trans (.same rfl rfl rfl rfl (by simp))

theorem fr_error {A : Obs → Prop} (s : St) (c : Nat) : Fr A s (error s c) := (fr_log s (.error c) (by simp [packet])).trans (fr_stop _)

theorem fr_send {A : Obs → Prop} (s : St) (k : Nat) (kd : Kind) (r : Bool) : Fr A s (send s k kd r) := by
  unfold send
  simp only
  split
  · split
    · exact .same rfl rfl rfl rfl (by simp)
    · unfold cancel; split <;> exact .same rfl rfl rfl rfl (by simp)
  · split
    · unfold cancel; split <;> exact .same rfl rfl rfl rfl (by simp)
    · exact .same rfl rfl rfl rfl (by simp)

theorem fr_sends {A : Obs → Prop} (l : List Nat) (r : Bool) (s : St) : Fr A s (l.foldl (fun s k => send s k (.exact s.versioned k) r) s) := by
  induction l generalizing s with
  | nil => exact .refl s
  | cons k l ih => exact (fr_send _ _ _ _).trans (ih _)

theorem fr_finalize {A : Obs → Prop} (s : St) : Fr A s (finalize s) := by
  unfold finalize
  split
  · exact (fr_log s _ (by simp [packet])).trans (fr_stop _)
  · exact (fr_log s _ (by simp [packet])).trans (fr_stop _)

theorem fr_fetchWindow {A : Obs → Prop} (s : St) (w : Nat) : Fr A s (fetchWindow s w) := by
  rw [fetchWindow_eq]
  split
  · exact fr_finalize s
  · exact Fr.trans (t := winBase s w) (.same rfl rfl rfl rfl (Nat.le_refl _)) ((fr_sends _ _ _).trans (fr_sends _ _ _))

theorem fr_deliver {A : Obs → Prop} (fuel : Nat) (s : St) : Fr A s (deliver fuel s) := by
  induction fuel generalizing s with
  | zero => exact .refl s
  | succ n ih =>
    unfold deliver
    split
    · exact .refl s
    · rename_i c _
      refine (fr_log s (.inOrder c) (by simp [packet])).trans (Fr.trans ?_ (ih _))
      exact .same rfl rfl rfl rfl (by simp)

theorem fr_takeFinal {A : Obs → Prop} (s : St) (d : Data) : Fr A s (takeFinal s d) := by
  unfold takeFinal
  split
  · split
    · rename_i f _ _
      unfold cancelExcess cancel
      simp only
      split <;> exact .same rfl rfl rfl rfl (by simp)
    · exact .refl s
  · exact .refl s

theorem fr_afterStored {A : Obs → Prop} (s : St) (d : Data) (cur w : Nat) : Fr A s (afterStored s d cur w) := by
  unfold afterStored
  split
  · exact fr_error _ _
  · refine (fr_takeFinal s d).trans (Fr.trans (t := deliverFrom (takeFinal s d) cur) ?_ (Fr.trans (t := learn (deliverFrom (takeFinal s d) cur) d cur) ?_ (fr_fetchWindow _ _)))
    · unfold deliverFrom; split
      · exact fr_deliver _ _
      · exact .refl _
    · unfold learn; split
      · exact .same rfl rfl rfl rfl (by simp)
      · exact .refl _

theorem fr_signal {A : Obs → Prop} (s : St) (o : Obs) (b : Bool) (ho : packet o = true → A o) : Fr A s (signal s o b) := by
  unfold signal; split
  · exact (fr_log s o ho).trans (fr_stop _)
  · exact fr_log s o ho

theorem fr_store {A : Obs → Prop} (s : St) (p : Pend) (c : Bytes) (cur : Nat) : Fr A s (store s p c cur) := by
  have h1 : Fr A s _ := fr_cancel s [p.iid]
  have h2 : Fr A (cancel s [p.iid]) (store s p c cur) := by
    unfold store copyTo
    split
    · exact ⟨rfl, Or.inr h1.now.symm, fun _ h _ => Or.inl h, fun _ h => h, Nat.le_refl _⟩
    · exact ⟨rfl, Or.inr h1.now.symm, fun _ h _ => Or.inl h, fun _ h => h, Nat.le_refl _⟩
  exact h1.trans h2

theorem fr_success {A : Obs → Prop} (s : St) (v : Val) (w : Nat) (b : Bool) (hA : A (.validated v.data)) : Fr A s (success s v w b) := by
  unfold success
  split
  · exact .refl s
  · split
    · exact .same rfl rfl rfl rfl (by simp)
    · exact (fr_store _ _ _ _).trans ((fr_signal _ _ _ (fun _ => hA)).trans (fr_afterStored _ _ _ _))

theorem fr_result {A : Obs → Prop} (s : St) (vid : Nat) (ok : Bool) (w : Nat) (b : Bool)
    (hA : ok = true → ∀ v ∈ s.validating, v.vid = vid → A (.validated v.data)) : Fr A s (result s vid ok w b) := by
  unfold result
  split
  · exact .refl s
  · rename_i v hv
    simp only
    refine Fr.trans (t := { s with validating := s.validating.filter (fun x => x.vid ≠ vid) }) ⟨rfl, Or.inl rfl, fun _ h _ => Or.inl h,
      fun _ h => (List.mem_filter.1 h).1, Nat.le_refl _⟩ ?_
    split
    · rename_i hok
      exact fr_success _ _ _ _ (hA hok v (List.mem_of_find?_eq_some hv) (by simpa using List.find?_some hv))
    · split
      · exact .refl _
      · exact fr_error _ _

theorem fr_afterLoss {A : Obs → Prop} (s : St) (k : Kind) (w : Nat) : Fr A s (afterLoss s k w) := by
  unfold afterLoss
  split
  · exact fr_error _ _
  · split
    · exact .same rfl rfl rfl rfl (by simp)
    · simp only
      rename_i p _
      refine Fr.trans (t := unschedule s p.node) (.same rfl rfl rfl rfl (Nat.le_refl _)) ?_
      split
      · exact fr_send _ _ _ _
      · exact Fr.trans (t := { unschedule s p.node with retx := (unschedule s p.node).retx ++ [p.seg] }) (.same rfl rfl rfl rfl (by simp)) (fr_fetchWindow _ _)

theorem fr_onNack {A : Obs → Prop} (s : St) (i : Nat) (g : Bool) (w : Nat) (b : Bool) : Fr A s (onNack s i g w b) := by
  unfold onNack
  split
  · exact .refl s
  · simp only
    refine Fr.trans (t := { s with live := s.live.filter (fun x => x.iid ≠ i) }) (.same rfl rfl rfl rfl (by simp)) ?_
    split
    · exact .refl _
    · refine (fr_signal _ .nacked b (by simp [packet])).trans ?_
      generalize signal { s with live := s.live.filter (fun x => x.iid ≠ i) } .nacked b = t
      refine Fr.trans (t := { t with inFlight := t.inFlight - 1 }) (.same rfl rfl rfl rfl (by simp)) ?_
      split
      · exact fr_afterLoss _ _ _
      · exact fr_error _ _

theorem fr_onTimeout {A : Obs → Prop} (s : St) (n w : Nat) (b : Bool) : Fr A s (onTimeout s n w b) := by
  unfold onTimeout
  split
  · exact .refl s
  · simp only
    rename_i p _
    refine Fr.trans (t := unschedule s p.node) (.same rfl rfl rfl rfl (Nat.le_refl _)) ?_
    split
    · exact .refl _
    · refine (fr_signal _ .timedOut b (by simp [packet])).trans ?_
      generalize signal (unschedule s p.node) .timedOut b = t
      exact Fr.trans (t := { t with inFlight := t.inFlight - 1 }) (.same rfl rfl rfl rfl (by simp)) (fr_afterLoss _ _ _)

/-- The signals about packets an event may add. -/
def may (s : St) : Ev → Obs → Prop
  | .data _ d v _ _ _, o => o = .received d ∨ (v = some true ∧ o = .validated d)
  | .result vid ok _ _, o => ok = true ∧ ∃ v ∈ s.validating, v.vid = vid ∧ o = .validated v.data
  | _, _ => False

theorem fr_validate (s : St) (p : Pend) (d : Data) (v : Option Bool) (w : Nat) (a b : Bool) (i : Nat) (s0 : St) (hid : ∀ x ∈ s.validating, x.vid < s.nextId) :
    ∃ t, Fr (may s0 (.data i d v w a b)) s t ∧ t.nextId < (validate s p d v w a b).nextId ∧ (validate s p d v w a b).now = t.now ∧
      ((validate s p d v w a b).lastRecv = t.lastRecv ∨ (validate s p d v w a b).lastRecv = t.now) ∧
      (∀ o ∈ (validate s p d v w a b).log, packet o = true → o ∈ t.log ∨ may s0 (.data i d v w a b) o) ∧
      (∀ x ∈ (validate s p d v w a b).validating, x ∈ t.validating ∨ x.vid < (validate s p d v w a b).nextId) := by
  unfold validate
  simp only
  have h1 : Fr (may s0 (.data i d v w a b)) s (signal (unschedule s p.node) (.received d) a) :=
    Fr.trans (t := unschedule s p.node) (.same rfl rfl rfl rfl (by simp [unschedule])) (fr_signal _ _ _ (fun _ => Or.inl rfl))
  generalize signal (unschedule s p.node) (.received d) a = t at h1
  refine ⟨t, h1, ?_⟩
  have hv : ∀ x ∈ t.validating ++ [⟨t.nextId, p.node, d⟩], x ∈ t.validating ∨ x = ⟨t.nextId, p.node, d⟩ := by simp
  split
  · refine ⟨by simp, rfl, Or.inl rfl, fun o ho _ => Or.inl ho, fun x hx => ?_⟩
    rcases hv x hx with h | h
    · exact Or.inl h
    · right; subst h; simp
  · rename_i ok
    have g := fr_result (A := may s0 (.data i d (some ok) w a b)) { t with validating := t.validating ++ [⟨t.nextId, p.node, d⟩], nextId := t.nextId + 1 } t.nextId ok w b (by
      intro hok x hx hxv
      rcases hv x hx with h | h
      · have := hid x (h1.val x h); have := h1.id; omega
      · subst h; subst hok; exact Or.inr ⟨rfl, rfl⟩)
    refine ⟨Nat.lt_of_lt_of_le (by simp) g.id, g.now, g.last, g.obs, fun x hx => ?_⟩
    rcases hv x (g.val x hx) with h | h
    · exact Or.inl h
    · right; subst h; exact Nat.lt_of_lt_of_le (by simp) g.id

/-- What one event changes. -/
structure Frame (s : St) (e : Ev) (t : St) : Prop where
  now : s.now ≤ t.now
  last : t.lastRecv = s.lastRecv ∨ t.lastRecv = s.now
  obs : ∀ o ∈ t.log, packet o = true → o ∈ s.log ∨ may s e o
  val : ∀ x ∈ t.validating, x ∈ s.validating ∨ x.vid < t.nextId
  id : s.nextId ≤ t.nextId

theorem Fr.frame {s t : St} {e : Ev} (h : Fr (may s e) s t) : Frame s e t :=
  ⟨Nat.le_of_eq h.now.symm, h.last, h.obs, fun x hx => Or.inl (h.val x hx), h.id⟩

theorem frame_onData (s : St) (i : Nat) (d : Data) (v : Option Bool) (w : Nat) (a b : Bool) (hid : ∀ x ∈ s.validating, x.vid < s.nextId) :
    Frame s (.data i d v w a b) (onData s i d v w a b) := by
  unfold onData
  split
  · exact (Fr.refl s).frame
  · split
    · simp only
      split
      · exact Fr.frame (.same rfl rfl rfl rfl (by simp))
      · split
        · exact Fr.frame (Fr.trans (t := { s with live := s.live.filter (fun x => x.iid ≠ i), inFlight := s.inFlight - 1 }) (.same rfl rfl rfl rfl (by simp)) (fr_error _ _))
        · split
          · exact Fr.frame (.same rfl rfl rfl rfl (by simp))
          · rename_i p _
            obtain ⟨t, h1, h2, h3, h4, h5, h6⟩ := fr_validate { s with live := s.live.filter (fun x => x.iid ≠ i), inFlight := s.inFlight - 1 } p d v w a b i s hid
            refine ⟨?_, ?_, ?_, ?_, ?_⟩
            · rw [h3, h1.now]; exact Nat.le_refl _
            · rcases h4 with h | h
              · rw [h]; exact h1.last
              · rw [h, h1.now]; exact Or.inr rfl
            · intro o ho hp
              rcases h5 o ho hp with h | h
              · exact h1.obs o h hp
              · exact Or.inr h
            · intro x hx
              rcases h6 x hx with h | h
              · exact Or.inl (h1.val x h)
              · exact Or.inr h
            · exact Nat.le_trans h1.id (Nat.le_of_lt h2)
    · exact (Fr.refl s).frame

theorem step_frame (s : St) (e : Ev) (hid : ∀ x ∈ s.validating, x.vid < s.nextId) : Frame s e (step s e) := by
  cases e with
  | data i x v w a b => exact frame_onData s i x v w a b hid
  | result v ok w a => exact (fr_result s v ok w a (fun hok x hx hv => ⟨hok, x, hx, hv, rfl⟩)).frame
  | nack i g w a => exact (fr_onNack s i g w a).frame
  | timeout n w a => exact (fr_onTimeout s n w a).frame
  | lost i => exact Fr.frame (.same rfl rfl rfl rfl (by simp [step]))
  | stop => exact (fr_stop s).frame
  | advance dt => exact ⟨by simp [step], Or.inl rfl, fun _ h _ => Or.inl h, fun _ h => Or.inl h, by simp [step]⟩

theorem step_id {s : St} {e : Ev} (hid : ∀ x ∈ s.validating, x.vid < s.nextId) : ∀ x ∈ (step s e).validating, x.vid < (step s e).nextId := by
  intro x hx
  have f := step_frame s e hid
  rcases f.val x hx with h | h
  · exact Nat.lt_of_lt_of_le (hid x h) f.id
  · exact h

/-- Every packet signalled was brought by an event. -/
theorem run_obs (s : St) (evs : List Ev) (hid : ∀ x ∈ s.validating, x.vid < s.nextId) (o : Obs) (ho : o ∈ (run s evs).log) (hp : packet o = true) :
    o ∈ s.log ∨ ∃ e1 e e2, evs = e1 ++ e :: e2 ∧ may (run s e1) e o := by
  induction evs generalizing s with
  | nil => exact Or.inl ho
  | cons e evs ih =>
    rcases ih _ (step_id hid) ho with h1 | ⟨e1, e', e2, h1, h2⟩
    · rcases (step_frame s e hid).obs o h1 hp with h2 | h2
      · exact Or.inl h2
      · exact Or.inr ⟨[], e, evs, rfl, h2⟩
    · exact Or.inr ⟨e :: e1, e', e2, by rw [h1]; rfl, h2⟩

theorem run_last (s : St) (evs : List Ev) (hid : ∀ x ∈ s.validating, x.vid < s.nextId) (h : s.lastRecv ≤ s.now) : (run s evs).lastRecv ≤ (run s evs).now := by
  induction evs generalizing s with
  | nil => exact h
  | cons e evs ih =>
    apply ih _ (step_id hid)
    have f := step_frame s e hid
    have := f.now
    rcases f.last with h2 | h2 <;> rw [h2] <;> omega

/-! A stopped fetcher -/

theorem success_stopped (s : St) (v : Val) (w : Nat) (b : Bool) (h : s.stopped = true) : success s v w b = s := by
  unfold success; rw [if_pos h]

theorem step_stopped (s : St) (e : Ev) (h : s.stopped = true) : (step s e).stopped = true ∧ (step s e).log = s.log := by
  cases e with
  | data i x v w a b =>
    simp only [step]; unfold onData
    split
    · exact ⟨h, rfl⟩
    · split
      · simp only; rw [if_pos h]; exact ⟨h, rfl⟩
      · exact ⟨h, rfl⟩
  | result v ok w a =>
    simp only [step]; unfold result
    split
    · exact ⟨h, rfl⟩
    · simp only
      split
      · rw [success_stopped _ _ _ _ (by exact h)]; exact ⟨h, rfl⟩
      · exact ⟨h, rfl⟩
  | nack i g w a =>
    simp only [step]; unfold onNack
    split
    · exact ⟨h, rfl⟩
    · simp only; rw [if_pos h]; exact ⟨h, rfl⟩
  | timeout n w a =>
    simp only [step]; unfold onTimeout
    split
    · exact ⟨h, rfl⟩
    · simp only; rw [if_pos (by exact h)]; exact ⟨h, rfl⟩
  | lost i => exact ⟨h, rfl⟩
  | stop => exact ⟨stop_stopped _, stop_log _⟩
  | advance dt => exact ⟨h, rfl⟩

theorem run_stopped (s : St) (evs : List Ev) (h : s.stopped = true) : (run s evs).stopped = true ∧ (run s evs).log = s.log := by
  induction evs generalizing s with
  | nil => exact ⟨h, rfl⟩
  | cons e evs ih =>
    have h1 := step_stopped s e h
    have h2 := ih _ h1.1
    exact ⟨h2.1, h2.2.trans h1.2⟩

end Ndn.Fetch
