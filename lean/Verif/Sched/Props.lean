import Verif.Sched.Lemmas
/-
C35: the scheduler executes each event at most once, in time order, never early.
-/
namespace Ndn.Sched
open Spec

/-- Every state of every history. -/
def Reach (s : St) : Prop := ∃ t ops, s = run (.init t) ops

theorem inv_run {s : St} (h : Inv s) (ops : List Op) : Inv (run s ops) := by
  induction ops generalizing s with
  | nil => exact h
  | cons op ops ih => exact ih (inv_step h op)

theorem reach_inv {s : St} (h : Reach s) : Inv s := by
  obtain ⟨t, ops, rfl⟩ := h
  exact inv_run (inv_init t) ops

/-! ### Identities are never reused -/

def schedId : Obs → Option Nat
  | .scheduled i _ => some i
  | _ => none

theorem ids_scheduleNext (s : St) (h : s.log.filterMap schedId = List.range s.nextId) :
    (scheduleNext s).log.filterMap schedId = List.range (scheduleNext s).nextId := by
  rw [scheduleNext_log, scheduleNext_nextId]; exact h

theorem ids_step {s : St} (h : s.log.filterMap schedId = List.range s.nextId) (op : Op) :
    (step s op).log.filterMap schedId = List.range (step s op).nextId := by
  cases op with
  | schedule d =>
    have hx : (s.log ++ [Obs.scheduled s.nextId (s.now + d)]).filterMap schedId = List.range (s.nextId + 1) := by
      rw [List.filterMap_append, h, List.range_succ]; rfl
    simp only [step]
    split
    · exact h
    · unfold schedule
      simp only
      split
      · exact ids_scheduleNext _ hx
      · exact hx
  | cancel i =>
    have hx : (s.log ++ [Obs.cancelled i]).filterMap schedId = List.range s.nextId := by
      rw [List.filterMap_append, h]; simp [schedId]
    simp only [step]
    split
    · exact h
    · unfold cancel
      simp only
      split
      · exact hx
      · by_cases hh : s.queue.head?.map Ev.id = some i
        · simp only [hh, if_true]
          split
          · exact ids_scheduleNext _ hx
          · exact hx
        · simp only [hh, if_false]
          split
          · exact ids_scheduleNext _ hx
          · exact hx
  | cancelAll =>
    simp only [step]
    split
    · exact h
    · simp only [cancelAll, List.filterMap_append, h]; simp [schedId]
  | tick d => exact h
  | expire =>
    simp only [step]
    split
    · split <;> exact h
    · exact h
  | run =>
    simp only [step]
    split
    · split <;> exact h
    · exact h
  | next =>
    simp only [step]
    split
    · split
      · exact ids_scheduleNext _ h
      · split
        · exact ids_scheduleNext _ h
        · simp only [List.filterMap_append, h]; simp [schedId]
    · exact h
  | ret =>
    simp only [step]
    split <;> exact h
  | throw =>
    simp only [step]
    split
    · exact ids_scheduleNext _ h
    · exact h

theorem ids_reach {s : St} (h : Reach s) : s.log.filterMap schedId = List.range s.nextId := by
  obtain ⟨t, ops, rfl⟩ := h
  have : ∀ (ops : List Op) (s : St), s.log.filterMap schedId = List.range s.nextId →
      (run s ops).log.filterMap schedId = List.range (run s ops).nextId := by
    intro ops
    induction ops with
    | nil => intro s h; exact h
    | cons op ops ih => intro s h; exact ih _ (ids_step h op)
  exact this ops _ rfl

/-- An event is scheduled once. -/
theorem scheduled_once {s : St} (h : Reach s) {pre mid post : List Obs} {i : Nat} {e e' : Int}
    (hl : s.log = pre ++ .scheduled i e :: mid ++ .scheduled i e' :: post) : False := by
  have := ids_reach h
  rw [hl] at this
  have hnd : (List.range s.nextId).Nodup := List.nodup_range
  rw [← this] at hnd
  simp only [List.filterMap_append, List.filterMap_cons, schedId, List.append_assoc, List.cons_append] at hnd
  rw [List.nodup_append] at hnd
  have h2 := hnd.2.1
  rw [List.nodup_cons] at h2
  exact h2.1 (by simp)

theorem pending_mem {l : List Obs} {acc : List Ev} {x : Ev} (h : x ∈ pending l acc) :
    x ∈ acc ∨ Obs.scheduled x.id x.expiry ∈ l := by
  induction l generalizing acc with
  | nil => exact .inl h
  | cons o l ih =>
    cases o with
    | scheduled i e =>
      rcases ih h with h' | h'
      · rcases List.mem_append.mp h' with h' | h'
        · exact .inl h'
        · obtain rfl := List.mem_singleton.mp h'
          exact .inr (List.mem_cons_self ..)
      · exact .inr (List.mem_cons_of_mem _ h')
    | cancelled i =>
      rcases ih h with h' | h'
      · exact .inl (List.mem_filter.mp h').1
      · exact .inr (List.mem_cons_of_mem _ h')
    | cancelledAll =>
      rcases ih h with h' | h'
      · cases h'
      · exact .inr (List.mem_cons_of_mem _ h')
    | ran i t =>
      rcases ih h with h' | h'
      · exact .inl (List.mem_filter.mp h').1
      · exact .inr (List.mem_cons_of_mem _ h')

/-! ### C35 -/

/-- Whatever the history of calls, clock advances, timer expirations, callbacks and exceptions, every
execution is of an event that at that moment is scheduled, not cancelled, not yet run, due, and first
among all such events in the order of expiry, then of scheduling. -/
theorem C35_correct (t : Int) (ops : List Op) : Correct (run (.init t) ops).log :=
  (reach_inv ⟨t, ops, rfl⟩).ok

/-- Not before its expiry: an event that runs at `t` was scheduled before, with expiry at most `t`. -/
theorem C35_not_early {s : St} (h : Reach s) {pre post : List Obs} {i : Nat} {t : Int}
    (hl : s.log = pre ++ .ran i t :: post) : ∃ e, Obs.scheduled i e ∈ pre ∧ e ≤ t := by
  obtain ⟨e, h1, h2, _⟩ := (reach_inv h).ok pre i t post hl
  rcases pending_mem h1 with h3 | h3
  · cases h3
  · exact ⟨e, h3, h2⟩

/-- At most once. -/
theorem C35_once {s : St} (h : Reach s) {pre mid post : List Obs} {i : Nat} {t t' : Int}
    (hl : s.log = pre ++ .ran i t :: mid ++ .ran i t' :: post) : False := by
  obtain ⟨e, h1, _⟩ := C35_not_early h (pre := pre) (i := i) (t := t) (post := mid ++ .ran i t' :: post) (by rw [hl]; simp)
  obtain ⟨e', h2, _⟩ := (reach_inv h).ok (pre ++ .ran i t :: mid) i t' post hl
  rw [pending_append] at h2
  rcases pending_mem (l := .ran i t :: mid) h2 with h3 | h3
  · have : (⟨i, e'⟩ : Ev) ∈ (pending (.ran i t :: mid) (pending pre [])) := h2
    simp only [pending] at this
    rcases pending_mem this with h4 | h4
    · simp at h4
    · obtain ⟨m1, m2, rfl⟩ := List.append_of_mem h4
      obtain ⟨p1, p2, rfl⟩ := List.append_of_mem h1
      exact scheduled_once h (i := i) (e := e) (e' := e') (pre := p1) (mid := p2 ++ .ran i t :: m1) (post := m2 ++ .ran i t' :: post) (by rw [hl]; simp)
  · have h4 : Obs.scheduled i e' ∈ mid := by simpa using h3
    obtain ⟨m1, m2, rfl⟩ := List.append_of_mem h4
    obtain ⟨p1, p2, rfl⟩ := List.append_of_mem h1
    exact scheduled_once h (i := i) (e := e) (e' := e') (pre := p1) (mid := p2 ++ .ran i t :: m1) (post := m2 ++ .ran i t' :: post) (by rw [hl]; simp)

/-- Never after it was cancelled. -/
theorem C35_cancelled {s : St} (h : Reach s) {pre mid post : List Obs} {i : Nat} {e t : Int}
    (hs : Obs.scheduled i e ∈ pre) (hl : s.log = pre ++ .cancelled i :: mid ++ .ran i t :: post) : False := by
  obtain ⟨e', h2, _⟩ := (reach_inv h).ok (pre ++ .cancelled i :: mid) i t post hl
  rw [pending_append] at h2
  simp only [pending] at h2
  rcases pending_mem h2 with h4 | h4
  · simp at h4
  · obtain ⟨m1, m2, rfl⟩ := List.append_of_mem h4
    obtain ⟨p1, p2, rfl⟩ := List.append_of_mem hs
    exact scheduled_once h (i := i) (e := e) (e' := e') (pre := p1) (mid := p2 ++ .cancelled i :: m1) (post := m2 ++ .ran i t :: post) (by rw [hl]; simp)

/-- Never after all events were cancelled. -/
theorem C35_cancelledAll {s : St} (h : Reach s) {pre mid post : List Obs} {i : Nat} {e t : Int}
    (hs : Obs.scheduled i e ∈ pre) (hl : s.log = pre ++ .cancelledAll :: mid ++ .ran i t :: post) : False := by
  obtain ⟨e', h2, _⟩ := (reach_inv h).ok (pre ++ .cancelledAll :: mid) i t post hl
  rw [pending_append] at h2
  simp only [pending] at h2
  rcases pending_mem h2 with h4 | h4
  · cases h4
  · obtain ⟨m1, m2, rfl⟩ := List.append_of_mem h4
    obtain ⟨p1, p2, rfl⟩ := List.append_of_mem hs
    exact scheduled_once h (i := i) (e := e) (e' := e') (pre := p1) (mid := p2 ++ .cancelledAll :: m1) (post := m2 ++ .ran i t :: post) (by rw [hl]; simp)

/-- A handle tells exactly whether its event is still to run. -/
theorem C35_handle {s : St} (h : Reach s) (i : Nat) :
    valid s i = true ↔ ∃ e, ⟨i, e⟩ ∈ pending s.log [] := by
  unfold valid
  rw [List.any_eq_true]
  constructor
  · rintro ⟨x, hx, hi⟩
    have hi : x.id = i := by simpa using hi
    subst hi
    exact ⟨x.expiry, ((reach_inv h).mem x).mpr hx⟩
  · rintro ⟨e, he⟩
    exact ⟨⟨i, e⟩, ((reach_inv h).mem _).mp he, by simp⟩

/-- Every event due when a timer firing starts, and still pending when the firing ends, has not been
missed: when the firing ends (other than by an exception) all pending events expire later. -/
theorem C35_firing {s : St} (h : Reach s) (start : Int) (hm : s.mode = .loop start)
    (hend : (step s .next).mode = .idle) :
    (step s .next).log = s.log ∧ ∀ x ∈ pending s.log [], start < x.expiry := by
  have hi := reach_inv h
  simp only [step, hm] at hend ⊢
  cases hq : s.queue with
  | nil =>
    simp only
    refine ⟨scheduleNext_log _, ?_⟩
    intro x hx
    rw [hi.mem, hq] at hx
    cases hx
  | cons e q =>
    rw [hq] at hend
    simp only at hend ⊢
    split at hend
    · rename_i hgt
      rw [if_pos hgt]
      refine ⟨scheduleNext_log _, ?_⟩
      intro x hx
      rw [hi.mem, hq] at hx
      have hs := hi.sorted
      rw [hq] at hs
      rcases List.mem_cons.mp hx with rfl | hx
      · omega
      · have := (List.pairwise_cons.mp hs).1 x hx
        unfold Lt at this
        omega
    · simp at hend

/-- No event is forgotten: whenever control is outside the scheduler and some pending event is due,
letting the timer expire and the io_context run executes the first pending event. -/
theorem C35_progress {s : St} (h : Reach s) (hm : s.mode = .idle) (x : Ev) (hx : x ∈ pending s.log [])
    (hd : x.expiry ≤ s.now) :
    ∃ e : Ev, e ∈ pending s.log [] ∧ (∀ y ∈ pending s.log [], e.expiry ≤ y.expiry) ∧
      (run s [.expire, .run, .next]).log = s.log ++ [.ran e.id s.now] := by
  have hi := reach_inv h
  rw [hi.mem] at hx
  cases hq : s.queue with
  | nil => rw [hq] at hx; cases hx
  | cons e q =>
    have hs := hi.sorted
    rw [hq] at hs hx
    have hle : ∀ y ∈ e :: q, e.expiry ≤ y.expiry := by
      intro y hy
      rcases List.mem_cons.mp hy with rfl | hy
      · exact Int.le_refl _
      · have := (List.pairwise_cons.mp hs).1 y hy
        unfold Lt at this
        omega
    have hed : e.expiry ≤ s.now := Int.le_trans (hle x hx) hd
    refine ⟨e, (hi.mem e).mpr (by rw [hq]; exact List.mem_cons_self ..), ?_, ?_⟩
    · intro y hy
      rw [hi.mem, hq] at hy
      exact hle y hy
    · have harm := hi.armed hm e (by rw [hq]; rfl)
      -- after the timer step a handler is ready
      have h1 : ∃ r tm, step s .expire = { s with ready := r + 1, timer := tm } := by
        simp only [step]
        rcases harm with hr | ht
        · have hsame : s = { s with ready := s.ready - 1 + 1, timer := s.timer } := by rw [Nat.sub_add_cancel hr]
          split
          · split
            · exact ⟨s.ready, none, rfl⟩
            · exact ⟨s.ready - 1, s.timer, hsame⟩
          · exact ⟨s.ready - 1, s.timer, hsame⟩
        · rw [ht]
          simp only [hed, if_true]
          exact ⟨s.ready, none, rfl⟩
      obtain ⟨r, tm, h1⟩ := h1
      show (step (step (step s .expire) .run) .next).log = _
      rw [h1]
      simp only [step, hm, Nat.succ_pos, gt_iff_lt, if_true, hq]
      rw [if_neg (by omega)]

/-- Callbacks that do nothing: a firing runs every due event. -/
theorem C35_drain {s : St} (h : Reach s) (start : Int) (hm : s.mode = .loop start) :
    ∃ n, let s' := run s ((List.replicate n [Op.next, Op.ret]).flatten ++ [Op.next])
      s'.mode = .idle ∧ ∀ x ∈ pending s.log [], x.expiry ≤ start → Obs.ran x.id s.now ∈ s'.log := by
  obtain ⟨t0, ops0, hr⟩ := h
  have hi : Inv s := reach_inv ⟨t0, ops0, hr⟩
  clear hr
  suffices hk : ∀ (k : Nat) (s : St), s.queue.length = k → Inv s → s.mode = .loop start →
      ∃ n, let s' := run s ((List.replicate n [Op.next, Op.ret]).flatten ++ [Op.next])
        s'.mode = .idle ∧ (∃ l, s'.log = s.log ++ l) ∧
        ∀ x ∈ s.queue, x.expiry ≤ start → Obs.ran x.id s.now ∈ s'.log by
    obtain ⟨n, h1, _, h2⟩ := hk _ s rfl hi hm
    exact ⟨n, h1, fun x hx => h2 x ((hi.mem x).mp hx)⟩
  intro k
  induction k with
  | zero =>
    intro s hl hi hm
    have hq : s.queue = [] := List.eq_nil_of_length_eq_zero hl
    refine ⟨0, ?_⟩
    simp only [List.replicate_zero, List.flatten_nil, List.nil_append]
    show (step s .next).mode = _ ∧ (∃ l, (step s .next).log = s.log ++ l) ∧ _
    simp only [step, hm, hq, scheduleNext_mode, scheduleNext_log, true_and]
    exact ⟨⟨[], by simp⟩, by simp⟩
  | succ k ih =>
    intro s hl hi hm
    cases hq : s.queue with
    | nil => rw [hq] at hl; simp at hl
    | cons e q =>
      rw [hq] at hl
      by_cases hgt : e.expiry > start
      · refine ⟨0, ?_⟩
        simp only [List.replicate_zero, List.flatten_nil, List.nil_append]
        show (step s .next).mode = _ ∧ (∃ l, (step s .next).log = s.log ++ l) ∧ _
        simp only [step, hm, hq, hgt, if_true, scheduleNext_mode, scheduleNext_log, true_and]
        refine ⟨⟨[], by simp⟩, ?_⟩
        intro x hx hxs
        exfalso
        have hs := hi.sorted
        rw [hq] at hs
        rcases List.mem_cons.mp hx with rfl | hx
        · omega
        · have := (List.pairwise_cons.mp hs).1 x hx
          unfold Lt at this
          omega
      · have hstep : run s [.next, .ret] = { s with queue := q, mode := .loop start, log := s.log ++ [.ran e.id s.now] } := by
          show step (step s .next) .ret = _
          simp only [step, hm, hq, hgt, if_false]
        have hi' : Inv (run s [.next, .ret]) := inv_run hi _
        rw [hstep] at hi'
        obtain ⟨n, h1, ⟨l, h2⟩, h3⟩ := ih _ (by simpa using hl) hi' rfl
        refine ⟨n + 1, ?_⟩
        have hrun : run s ((List.replicate (n + 1) [Op.next, Op.ret]).flatten ++ [Op.next]) =
            run (run s [.next, .ret]) ((List.replicate n [Op.next, Op.ret]).flatten ++ [Op.next]) := by
          rw [List.replicate_succ, List.flatten_cons, List.append_assoc]
          exact List.foldl_append
        simp only [hrun, hstep]
        refine ⟨h1, ⟨[.ran e.id s.now] ++ l, by rw [h2]; simp⟩, ?_⟩
        intro x hx hxs
        rcases List.mem_cons.mp hx with rfl | hx
        · rw [h2]; simp
        · exact h3 x hx hxs

/-- An exception in a callback loses nothing: the remaining events stay scheduled and the timer is
armed for the first of them. -/
theorem C35_exception {s : St} (h : Reach s) (start : Int) (i : Nat) (hm : s.mode = .callback start i) :
    (step s .throw).mode = .idle ∧ pending (step s .throw).log [] = pending s.log [] ∧
      ∀ e, s.queue.head? = some e → (step s .throw).timer = some e.expiry := by
  simp only [step, hm]
  refine ⟨by rw [scheduleNext_mode], by rw [scheduleNext_log], ?_⟩
  intro e he
  exact scheduleNext_timer _ e he

/-- Scheduling, from outside or from inside a callback, makes exactly one new event pending, with
expiry the delay after the time of the call; the others stay pending. -/
theorem C35_schedule {s : St} (after : Int) (hm : ∀ st, s.mode ≠ .loop st) :
    ∃ i, pending (step s (.schedule after)).log [] = pending s.log [] ++ [⟨i, s.now + after⟩] ∧
      (step s (.schedule after)).now = s.now ∧ (step s (.schedule after)).mode = s.mode := by
  have hst : step s (.schedule after) = schedule s after := by
    simp only [step]
  refine ⟨s.nextId, ?_⟩
  rw [hst]
  have hl : (schedule s after).log = s.log ++ [.scheduled s.nextId (s.now + after)] := by
    unfold schedule
    simp only
    split
    · exact scheduleNext_log _
    · rfl
  rw [hl, pending_append]
  refine ⟨rfl, ?_, ?_⟩
  · unfold schedule
    simp only
    split
    · exact scheduleNext_now _
    · rfl
  · unfold schedule
    simp only
    split
    · exact scheduleNext_mode _
    · rfl

/-- A history with ties, a cancellation from inside a callback, re-scheduling and an exception. -/
def sample : List Op :=
  [.schedule 10, .schedule 5, .schedule 5, .schedule 7, .cancel 3, .tick 6, .expire, .run, .next, .cancel 2, .schedule 0,
   .ret, .next, .throw, .tick 10, .expire, .run, .next, .ret, .next]

example : (run (.init 0) sample).log =
    [.scheduled 0 10, .scheduled 1 5, .scheduled 2 5, .scheduled 3 7, .cancelled 3, .ran 1 6, .cancelled 2,
     .scheduled 4 6, .ran 4 6, .ran 0 16] := by decide

example : Reach (run (.init 0) sample) := ⟨0, sample, rfl⟩

example : (run (.init 0) (sample.take 8)).mode = .loop 6 ∧ pending (run (.init 0) (sample.take 8)).log [] ≠ [] := by decide

end Ndn.Sched
