import Verif.Sched.Spec
namespace Ndn.Sched
open Spec

theorem pending_append (l m : List Obs) (acc : List Ev) : pending (l ++ m) acc = pending m (pending l acc) := by
  induction l generalizing acc with
  | nil => rfl
  | cons o l ih => cases o <;> simp [pending, ih]

/-- Order of execution. -/
def Lt (a b : Ev) : Prop := a.expiry < b.expiry ∨ (a.expiry = b.expiry ∧ a.id < b.id)

theorem insertQ_mem {e x : Ev} {q : List Ev} : x ∈ insertQ e q ↔ x = e ∨ x ∈ q := by
  induction q with
  | nil => simp [insertQ]
  | cons y q ih =>
    unfold insertQ
    split
    · simp
    · simp only [List.mem_cons, ih]
      constructor
      · rintro (h | h | h)
        · exact .inr (.inl h)
        · exact .inl h
        · exact .inr (.inr h)
      · rintro (h | h | h)
        · exact .inr (.inl h)
        · exact .inl h
        · exact .inr (.inr h)

theorem insertQ_sorted {e : Ev} {q : List Ev} (h : q.Pairwise Lt) (hid : ∀ x ∈ q, x.id < e.id) :
    (insertQ e q).Pairwise Lt := by
  induction q with
  | nil => simp [insertQ]
  | cons y q ih =>
    have h' := List.pairwise_cons.mp h
    unfold insertQ
    split
    · rename_i hlt
      refine List.pairwise_cons.mpr ⟨?_, h⟩
      intro x hx
      rcases List.mem_cons.mp hx with rfl | hx
      · exact .inl hlt
      · have := h'.1 x hx
        unfold Lt at *
        omega
    · rename_i hlt
      refine List.pairwise_cons.mpr ⟨?_, ih h'.2 (fun x hx => hid x (List.mem_cons_of_mem _ hx))⟩
      intro x hx
      have hy := hid y (List.mem_cons_self ..)
      rcases insertQ_mem.mp hx with rfl | hx
      · unfold Lt; omega
      · exact h'.1 x hx

theorem insertQ_nodup {e : Ev} {q : List Ev} (h : q.Pairwise (fun a b => a.id ≠ b.id)) (hid : ∀ x ∈ q, x.id < e.id) :
    (insertQ e q).Pairwise (fun a b => a.id ≠ b.id) := by
  induction q with
  | nil => simp [insertQ]
  | cons y q ih =>
    have h' := List.pairwise_cons.mp h
    unfold insertQ
    split
    · refine List.pairwise_cons.mpr ⟨?_, h⟩
      intro x hx
      have := hid x hx
      omega
    · refine List.pairwise_cons.mpr ⟨?_, ih h'.2 (fun x hx => hid x (List.mem_cons_of_mem _ hx))⟩
      intro x hx
      have hy := hid y (List.mem_cons_self ..)
      rcases insertQ_mem.mp hx with rfl | hx
      · omega
      · exact h'.1 x hx

theorem insertQ_head {e : Ev} {q : List Ev} : (insertQ e q).head? = some e ∨ (insertQ e q).head? = q.head? := by
  cases q with
  | nil => simp [insertQ]
  | cons y q =>
    unfold insertQ
    split <;> simp

structure Inv (s : St) : Prop where
  sorted : s.queue.Pairwise Lt
  nodup : s.queue.Pairwise (fun a b => a.id ≠ b.id)
  fresh : ∀ x ∈ s.queue, x.id < s.nextId
  mem : ∀ x, x ∈ pending s.log [] ↔ x ∈ s.queue
  ok : Correct s.log
  armed : s.mode = .idle → ∀ e, s.queue.head? = some e → s.ready > 0 ∨ s.timer = some e.expiry
  start : ∀ t, (s.mode = .loop t ∨ ∃ i, s.mode = .callback t i) → t ≤ s.now

theorem correct_snoc {l : List Obs} {o : Obs} (h : Correct l)
    (ho : ∀ i t, o = .ran i t → MayRun l i t) : Correct (l ++ [o]) := by
  intro pre i t post heq
  rcases List.eq_nil_or_concat post with rfl | ⟨post', x, rfl⟩
  · have := List.append_inj' heq (by simp)
    obtain ⟨h1, h2⟩ := this
    simp only [List.cons.injEq, and_true] at h2
    rw [← h1]
    exact ho i t h2
  · have heq' : l ++ [o] = (pre ++ Obs.ran i t :: post') ++ [x] := by rw [heq]; simp
    have := List.append_inj' heq' (by simp)
    exact h pre i t post' this.1

theorem inv_init (t : Int) : Inv (.init t) := by
  refine ⟨List.Pairwise.nil, List.Pairwise.nil, by simp [St.init], by simp [St.init, pending], ?_, by simp [St.init], by simp [St.init]⟩
  intro pre i t post h
  simp [St.init] at h

/-- Effect of `scheduleNext` on the parts of the state. -/
theorem scheduleNext_queue (s : St) : (scheduleNext s).queue = s.queue := by
  unfold scheduleNext; split <;> rfl
theorem scheduleNext_log (s : St) : (scheduleNext s).log = s.log := by
  unfold scheduleNext; split <;> rfl
theorem scheduleNext_nextId (s : St) : (scheduleNext s).nextId = s.nextId := by
  unfold scheduleNext; split <;> rfl
theorem scheduleNext_mode (s : St) : (scheduleNext s).mode = s.mode := by
  unfold scheduleNext; split <;> rfl
theorem scheduleNext_now (s : St) : (scheduleNext s).now = s.now := by
  unfold scheduleNext; split <;> rfl
theorem scheduleNext_ready (s : St) : (scheduleNext s).ready = s.ready := by
  unfold scheduleNext; split <;> rfl
theorem scheduleNext_timer (s : St) (e : Ev) (h : s.queue.head? = some e) : (scheduleNext s).timer = some e.expiry := by
  unfold scheduleNext
  cases hq : s.queue with
  | nil => rw [hq] at h; cases h
  | cons x q => rw [hq] at h; simp at h; subst h; rfl

/-- The invariant is kept by `scheduleNext`, which also establishes the timer condition. -/
theorem inv_scheduleNext {s : St} (h1 : s.queue.Pairwise Lt) (h0 : s.queue.Pairwise (fun a b => a.id ≠ b.id)) (h2 : ∀ x ∈ s.queue, x.id < s.nextId)
    (h3 : ∀ x, x ∈ pending s.log [] ↔ x ∈ s.queue) (h4 : Correct s.log)
    (h5 : ∀ t, (s.mode = .loop t ∨ ∃ i, s.mode = .callback t i) → t ≤ s.now) : Inv (scheduleNext s) := by
  refine ⟨?_, ?_, ?_, ?_, ?_, ?_, ?_⟩
  · rw [scheduleNext_queue]; exact h1
  · rw [scheduleNext_queue]; exact h0
  · rw [scheduleNext_queue, scheduleNext_nextId]; exact h2
  · rw [scheduleNext_queue, scheduleNext_log]; exact h3
  · rw [scheduleNext_log]; exact h4
  · intro _ e he
    rw [scheduleNext_queue] at he
    right; exact scheduleNext_timer s e he
  · rw [scheduleNext_mode, scheduleNext_now]; exact h5

theorem executing_false (s : St) : s.executing = false ↔ s.mode = .idle := by
  unfold St.executing
  cases s.mode <;> simp

theorem inv_schedule {s : St} (h : Inv s) (d : Int) : Inv (schedule s d) := by
  have hs : (insertQ ⟨s.nextId, s.now + d⟩ s.queue).Pairwise Lt := insertQ_sorted h.sorted h.fresh
  have hn := insertQ_nodup (e := ⟨s.nextId, s.now + d⟩) h.nodup h.fresh
  have hf : ∀ x ∈ insertQ ⟨s.nextId, s.now + d⟩ s.queue, x.id < s.nextId + 1 := by
    intro x hx
    rcases insertQ_mem.mp hx with rfl | hx
    · exact Nat.lt_succ_self _
    · have := h.fresh x hx; omega
  have hm : ∀ x, x ∈ pending (s.log ++ [.scheduled s.nextId (s.now + d)]) [] ↔
      x ∈ insertQ ⟨s.nextId, s.now + d⟩ s.queue := by
    intro x
    rw [pending_append, insertQ_mem, ← h.mem x]
    simp only [pending, List.mem_append, List.mem_singleton]
    exact Or.comm
  have hc : Correct (s.log ++ [.scheduled s.nextId (s.now + d)]) := correct_snoc h.ok (by simp)
  unfold schedule
  simp only
  split
  · exact inv_scheduleNext hs hn hf hm hc h.start
  · rename_i hcond
    refine ⟨hs, hn, hf, hm, hc, ?_, h.start⟩
    intro hmode e he
    simp only at hmode he
    have hne : ¬ (insertQ ⟨s.nextId, s.now + d⟩ s.queue).head? = some ⟨s.nextId, s.now + d⟩ := by
      intro hx
      apply hcond
      simp [(executing_false s).mpr hmode, hx]
    rcases insertQ_head (e := ⟨s.nextId, s.now + d⟩) (q := s.queue) with hx | hx
    · exact absurd hx hne
    · rw [hx] at he
      exact h.armed hmode e he

theorem head_filter {q : List Ev} {i : Nat} {e : Ev} (h : q.head? ≠ none) (hne : q.head?.map Ev.id ≠ some i)
    (he : (q.filter (fun x => x.id ≠ i)).head? = some e) : q.head? = some e := by
  cases q with
  | nil => simp at h
  | cons x q =>
    have hx : x.id ≠ i := by simpa using hne
    rw [List.filter_cons_of_pos (by simpa using hx)] at he
    simpa using he

theorem inv_cancel {s : St} (h : Inv s) (i : Nat) : Inv (cancel s i) := by
  have hc : Correct (s.log ++ [.cancelled i]) := correct_snoc h.ok (by simp)
  have hm : ∀ x, x ∈ pending (s.log ++ [.cancelled i]) [] ↔ x ∈ s.queue.filter (fun x => x.id ≠ i) := by
    intro x
    rw [pending_append]
    simp only [pending, List.mem_filter]
    rw [h.mem x]
  unfold cancel
  simp only
  split
  · rename_i hv
    have hno : s.queue.filter (fun x => x.id ≠ i) = s.queue := by
      rw [List.filter_eq_self]
      intro x hx
      have hv' : ¬ (∃ y ∈ s.queue, y.id = i) := by
        simpa [valid] using hv
      simp only [ne_eq, decide_not, Bool.not_eq_true', decide_eq_false_iff_not]
      exact fun hxi => hv' ⟨x, hx, hxi⟩
    rw [hno] at hm
    exact ⟨h.sorted, h.nodup, h.fresh, hm, hc, h.armed, h.start⟩
  · rename_i hv
    have hsub : (s.queue.filter (fun x => x.id ≠ i)).Sublist s.queue := List.filter_sublist
    by_cases hh : s.queue.head?.map Ev.id = some i
    · simp only [hh, if_true]
      split
      · exact inv_scheduleNext (h.sorted.sublist hsub) (h.nodup.sublist hsub) (fun x hx => h.fresh x (hsub.subset hx)) hm hc h.start
      · rename_i hex
        refine ⟨h.sorted.sublist hsub, h.nodup.sublist hsub, fun x hx => h.fresh x (hsub.subset hx), hm, hc, ?_, h.start⟩
        intro hmode
        exfalso
        apply hex
        rw [Bool.not_eq_true']
        exact (executing_false _).mpr hmode
    · simp only [hh, if_false]
      split
      · exact inv_scheduleNext (h.sorted.sublist hsub) (h.nodup.sublist hsub) (fun x hx => h.fresh x (hsub.subset hx)) hm hc h.start
      · rename_i hex
        refine ⟨h.sorted.sublist hsub, h.nodup.sublist hsub, fun x hx => h.fresh x (hsub.subset hx), hm, hc, ?_, h.start⟩
        intro hmode
        exfalso
        apply hex
        rw [Bool.not_eq_true']
        exact (executing_false _).mpr hmode

theorem inv_step {s : St} (h : Inv s) (op : Op) : Inv (step s op) := by
  cases op with
  | schedule d =>
    simp only [step]
    split
    · exact h
    · exact inv_schedule h d
  | cancel i =>
    simp only [step]
    split
    · exact h
    · exact inv_cancel h i
  | cancelAll =>
    simp only [step]
    split
    · exact h
    · refine ⟨List.Pairwise.nil, List.Pairwise.nil, by simp [cancelAll], ?_, correct_snoc h.ok (by simp), by simp [cancelAll], h.start⟩
      intro x
      simp only [cancelAll, pending_append, pending]
  | tick d =>
    refine ⟨h.sorted, h.nodup, h.fresh, h.mem, h.ok, h.armed, ?_⟩
    intro t ht
    have := h.start t ht
    simp only [step]
    omega
  | expire =>
    simp only [step]
    split
    · rename_i t ht
      split
      · exact ⟨h.sorted, h.nodup, h.fresh, h.mem, h.ok, fun _ _ _ => .inl (Nat.succ_pos _), h.start⟩
      · exact h
    · exact h
  | run =>
    simp only [step]
    split
    · rename_i hmode
      split
      · refine ⟨h.sorted, h.nodup, h.fresh, h.mem, h.ok, by simp, ?_⟩
        intro t ht
        simp at ht
        simp [ht]
      · exact h
    · exact h
  | next =>
    simp only [step]
    split
    · rename_i start hmode
      have hidle : Inv (scheduleNext { s with mode := .idle }) :=
        inv_scheduleNext (s := { s with mode := .idle }) h.sorted h.nodup h.fresh h.mem h.ok (by simp)
      cases hq : s.queue with
      | nil =>
        rw [hq] at hidle
        exact hidle
      | cons e q =>
        rw [hq] at hidle
        simp only
        have hsrt := h.sorted
        rw [hq] at hsrt
        obtain ⟨hs1, hs2⟩ := List.pairwise_cons.mp hsrt
        have hnd := h.nodup
        rw [hq] at hnd
        obtain ⟨hn1, hn2⟩ := List.pairwise_cons.mp hnd
        split
        · exact hidle
        · rename_i hdue
          have hst := h.start start (.inl hmode)
          have hmem : ∀ x, x ∈ pending s.log [] ↔ x = e ∨ x ∈ q := by
            intro x; rw [h.mem x, hq]; simp
          refine ⟨hs2, hn2, ?_, ?_, ?_, by simp, ?_⟩
          · intro x hx
            exact h.fresh x (by rw [hq]; exact List.mem_cons_of_mem _ hx)
          · intro x
            rw [pending_append]
            simp only [pending, List.mem_filter, hmem]
            constructor
            · rintro ⟨rfl | hx, hne⟩
              · simp at hne
              · exact hx
            · intro hx
              refine ⟨.inr hx, ?_⟩
              have h2 : x.id ≠ e.id := fun hid => hn1 x hx hid.symm
              simpa using h2
          · refine correct_snoc h.ok ?_
            intro i t hit
            simp only [Obs.ran.injEq] at hit
            obtain ⟨rfl, rfl⟩ := hit
            refine ⟨e.expiry, (hmem e).mpr (.inl rfl), by omega, ?_⟩
            intro x hx
            rcases (hmem x).mp hx with rfl | hx
            · exact .inr ⟨rfl, Nat.le_refl _⟩
            · have := hs1 x hx
              unfold Lt at this
              omega
          · intro t ht
            simp at ht
            subst ht
            exact hst
    · exact h
  | ret =>
    simp only [step]
    split
    · rename_i start i hmode
      refine ⟨h.sorted, h.nodup, h.fresh, h.mem, h.ok, by simp, ?_⟩
      intro t ht
      simp at ht
      subst ht
      exact h.start start (.inr ⟨i, hmode⟩)
    · exact h
  | throw =>
    simp only [step]
    split
    · exact inv_scheduleNext (s := { s with mode := .idle }) h.sorted h.nodup h.fresh h.mem h.ok (by simp)
    · exact h

end Ndn.Sched
