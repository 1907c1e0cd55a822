import Verif.Notify.Spec

namespace Ndn.Notify
open Ndn.Name Ndn.Notify.Spec

theorem runFrom_append (c : Cfg) (s : St) (a b : List Ev) :
    runFrom c s (a ++ b) =
      ((runFrom c (runFrom c s a).1 b).1, (runFrom c s a).2 ++ (runFrom c (runFrom c s a).1 b).2) := by
  induction a generalizing s with
  | nil => rfl
  | cons e es ih => simp only [List.cons_append, runFrom, ih]

theorem run_append (c : Cfg) (a b : List Ev) :
    run c (a ++ b) =
      ((runFrom c (run c a).1 b).1, (run c a).2 ++ (runFrom c (run c a).1 b).2) :=
  runFrom_append c init a b

theorem run_snoc (c : Cfg) (a : List Ev) (e : Ev) :
    run c (a ++ [e]) =
      ((step c (run c a).1 e).1, (run c a).2 ++ [(e, (step c (run c a).1 e).2)]) :=
  run_append c a [e]

/-! ### The functions that only touch Interests -/

/-- Observations that concern Interests only. -/
def Plain (c : Cfg) (o : Out) : Prop :=
  (∃ old, o = .express (initialReq c) old) ∨ (∃ r, o = .cancel r)

/-- Effect of a function that does not touch the back-off. -/
structure Calm (s : St) (r : St × List Out) : Prop where
  track : r.2.foldl track s.pending = r.1.pending
  quiet : ∀ o ∈ r.2, ∀ ms, o ≠ .backoff ms
  timer : r.1.timer = s.timer
  att : r.1.attempts = s.attempts
  nack : r.1.lastNack = s.lastNack
  dead : r.1.dead = s.dead

theorem Calm.refl (s : St) : Calm s (s, []) :=
  ⟨rfl, (fun _ h => by cases h), rfl, rfl, rfl, rfl⟩

theorem Calm.comp {s : St} {r q : St × List Out} (h : Calm s r) (k : Calm r.1 q) :
    Calm s (q.1, r.2 ++ q.2) := by
  refine ⟨?_, ?_, k.timer.trans h.timer, k.att.trans h.att, k.nack.trans h.nack, k.dead.trans h.dead⟩
  · rw [List.foldl_append, h.track, k.track]
  · intro o ho
    rcases List.mem_append.1 ho with ho | ho
    · exact h.quiet o ho
    · exact k.quiet o ho

theorem stop_calm (s : St) (hp : s.pending.isSome → s.running = true) : Calm s (stop s) := by
  unfold stop
  cases hr : s.running with
  | false => exact Calm.refl s
  | true =>
    simp only [if_true]
    cases hq : s.pending with
    | none => exact ⟨by simp [hq], by simp, rfl, rfl, rfl, rfl⟩
    | some r => exact ⟨by simp [Spec.track], by simp, rfl, rfl, rfl, rfl⟩

theorem stop_running (s : St) : (stop s).1.running = false := by
  unfold stop
  cases hr : s.running with
  | false => exact hr
  | true => rfl

/-- An Interest is pending only while running. -/
def Own (s : St) : Prop := s.pending.isSome → s.running = true

theorem stop_own (s : St) (h : Own s) : Own (stop s).1 := by
  unfold stop Own at *
  cases hr : s.running with
  | false => rw [hr] at h; simpa [hr] using h
  | true => simp

theorem stop_plain (c : Cfg) (s : St) : ∀ o ∈ (stop s).2, Plain c o := by
  unfold stop
  cases hr : s.running <;> cases hp : s.pending <;> simp [Plain]

/-- Will the subscriber go on? -/
def Going (s : St) : Prop := s.running = true ∧ (s.hasSub = true ∨ s.hasNack = true)

instance (s : St) : Decidable (Going s) := inferInstanceAs (Decidable (_ ∧ _))

/-- `shouldStop` in closed form. -/
theorem shouldStop_eq (s : St) :
    shouldStop s = if Going s then (false, s, []) else (true, stop s) := by
  unfold shouldStop
  by_cases g : Going s
  · rw [if_pos g]
    obtain ⟨hr, h | h⟩ := g <;> simp [hr, h]
  · rw [if_neg g]
    unfold Going at g
    cases hr : s.running <;> cases hs : s.hasSub <;> cases hn : s.hasNack <;> simp_all [stop]

theorem sendInitial_eq (c : Cfg) (s : St) :
    sendInitial c s = if Going s then
      ({ s with pending := some (initialReq c) }, [.express (initialReq c) s.pending]) else stop s := by
  unfold sendInitial
  rw [shouldStop_eq]
  by_cases h : Going s
  · rw [if_pos h, if_pos h]; rfl
  · rw [if_neg h, if_neg h]

theorem sendNext_eq (c : Cfg) (s : St) :
    sendNext c s = if Going s then
      ({ s with pending := some (numberedReq c ((s.last + 1) % 2 ^ 64)) },
        [.express (numberedReq c ((s.last + 1) % 2 ^ 64)) s.pending]) else stop s := by
  unfold sendNext
  rw [shouldStop_eq]
  by_cases h : Going s
  · rw [if_pos h, if_pos h]
    simp only [Conv.from_eq]
    rfl
  · rw [if_neg h, if_neg h]

theorem express_calm (s : St) (r : Req) : Calm s ({ s with pending := some r }, [.express r s.pending]) :=
  ⟨rfl, by simp, rfl, rfl, rfl, rfl⟩

theorem sendInitial_calm (c : Cfg) (s : St) (h : Own s) : Calm s (sendInitial c s) := by
  rw [sendInitial_eq]
  by_cases g : Going s
  · rw [if_pos g]; exact express_calm s _
  · rw [if_neg g]; exact stop_calm s h

theorem sendNext_calm (c : Cfg) (s : St) (h : Own s) : Calm s (sendNext c s) := by
  rw [sendNext_eq]
  by_cases g : Going s
  · rw [if_pos g]; exact express_calm s _
  · rw [if_neg g]; exact stop_calm s h

theorem sendInitial_own (c : Cfg) (s : St) (h : Own s) : Own (sendInitial c s).1 := by
  rw [sendInitial_eq]
  by_cases g : Going s
  · rw [if_pos g]; exact fun _ => g.1
  · rw [if_neg g]; exact stop_own s h

theorem sendNext_own (c : Cfg) (s : St) (h : Own s) : Own (sendNext c s).1 := by
  rw [sendNext_eq]
  by_cases g : Going s
  · rw [if_pos g]; exact fun _ => g.1
  · rw [if_neg g]; exact stop_own s h

theorem sendInitial_plain (c : Cfg) (s : St) : ∀ o ∈ (sendInitial c s).2, Plain c o := by
  rw [sendInitial_eq]
  by_cases g : Going s
  · rw [if_pos g]; intro o ho
    simp only [List.mem_singleton] at ho
    exact Or.inl ⟨_, ho⟩
  · rw [if_neg g]; exact stop_plain c s

/-- After the initial Interest: it is the pending one, or the subscriber is stopped. -/
theorem sendInitial_run (c : Cfg) (s : St) :
    (sendInitial c s).1.running = true → (sendInitial c s).1.pending = some (initialReq c) ∧
      (sendInitial c s).2 = [.express (initialReq c) s.pending] := by
  rw [sendInitial_eq]
  by_cases g : Going s
  · rw [if_pos g]; exact fun _ => ⟨rfl, rfl⟩
  · rw [if_neg g]; intro h; rw [stop_running] at h; cases h

theorem sendNext_run (c : Cfg) (s : St) :
    (sendNext c s).1.running = true →
      (sendNext c s).1.pending = some (numberedReq c ((s.last + 1) % 2 ^ 64)) ∧
      (sendNext c s).2 = [.express (numberedReq c ((s.last + 1) % 2 ^ 64)) s.pending] := by
  rw [sendNext_eq]
  by_cases g : Going s
  · rw [if_pos g]; exact fun _ => ⟨rfl, rfl⟩
  · rw [if_neg g]; intro h; rw [stop_running] at h; cases h

theorem call_good (c : Cfg) (s : St) (h : Own s) (x : Call) :
    Calm s (call c s x) ∧ Own (call c s x).1 ∧ (call c s x).1.last = s.last ∧
      ∀ o ∈ (call c s x).2, Plain c o := by
  have hstop : (stop s).1.last = s.last := by
    unfold stop; cases s.running <;> rfl
  cases x with
  | start =>
    simp only [call, start]
    rcases Bool.eq_false_or_eq_true s.running with hr | hr
    · simp only [hr, if_true]
      exact ⟨Calm.refl s, h, trivial, by simp⟩
    · have hb : s.pending = none := by
        cases hp : s.pending with
        | none => rfl
        | some r => have := h (by rw [hp]; rfl); rw [hr] at this; cases this
      have ho : Own { s with running := true } := fun _ => rfl
      have hk := sendInitial_calm c _ ho
      simp only [hr, Bool.false_eq_true, if_false]
      refine ⟨⟨hk.track, hk.quiet, hk.timer, hk.att, hk.nack, hk.dead⟩, sendInitial_own c _ ho, ?_,
        sendInitial_plain c _⟩
      rw [sendInitial_eq]
      by_cases g : Going { s with running := true }
      · rw [if_pos g]
      · rw [if_neg g]; rfl
  | stop => exact ⟨stop_calm s h, stop_own s h, hstop, stop_plain c s⟩
  | subscribe b => exact ⟨⟨rfl, by simp [call], rfl, rfl, rfl, rfl⟩, h, rfl, by simp [call]⟩
  | listenNack b => exact ⟨⟨rfl, by simp [call], rfl, rfl, rfl, rfl⟩, h, rfl, by simp [call]⟩

theorem calls_good (c : Cfg) (s : St) (h : Own s) (xs : List Call) :
    Calm s (calls c s xs) ∧ Own (calls c s xs).1 ∧ (calls c s xs).1.last = s.last ∧
      ∀ o ∈ (calls c s xs).2, Plain c o := by
  induction xs generalizing s with
  | nil => exact ⟨Calm.refl s, h, rfl, by simp [calls]⟩
  | cons x xs ih =>
    obtain ⟨a1, a2, a3, a4⟩ := call_good c s h x
    obtain ⟨b1, b2, b3, b4⟩ := ih _ a2
    refine ⟨a1.comp b1, b2, b3.trans a3, ?_⟩
    intro o ho
    rcases List.mem_append.1 ho with ho | ho
    · exact a4 o ho
    · exact b4 o ho

/-! ### Callbacks -/

/-- An observation that is neither about Interests nor about the back-off. -/
def Inert (o : Out) : Prop := (∀ p, track p o = p) ∧ ∀ ms, o ≠ .backoff ms

theorem emit_calm (c : Cfg) (o : Out) (ho : Inert o) (react : List Call) (k : St → St × List Out)
    (s : St) (h : Own s) (hk : ∀ s, Own s → Calm s (k s)) : Calm s (emit c [o] react k s) := by
  obtain ⟨a1, a2, -, -⟩ := calls_good c s h react
  have h1 := a1.comp (hk _ a2)
  refine ⟨?_, ?_, h1.timer, h1.att, h1.nack, h1.dead⟩
  · simp only [emit, List.cons_append, List.nil_append, List.foldl_cons, ho.1]
    exact h1.track
  · intro x hx
    simp only [emit, List.cons_append, List.nil_append, List.mem_cons] at hx
    rcases hx with rfl | hx
    · exact ho.2
    · exact h1.quiet x hx

theorem emit_own (c : Cfg) (o : List Out) (react : List Call) (k : St → St × List Out)
    (s : St) (h : Own s) (hk : ∀ s, Own s → Own (k s).1) : Own (emit c o react k s).1 :=
  hk _ (calls_good c s h react).2.1

/-- `afterReceiveData` in closed form, when the subscriber goes on. -/
theorem afterData_going (c : Cfg) (name : List Comp) (note : Option Nat) (react : List Call) (s : St)
    (g : Going s) :
    afterData c name note react s =
      match name.getLast? with
      | none => ({ s with dead := true }, [])
      | some x =>
        match Conv.sequence.to c.conv x with
        | none => emit c [.decodeError] react (sendInitial c) s
        | some n =>
          match note with
          | none => emit c [.decodeError] react (sendInitial c) { s with last := n }
          | some v =>
            if s.hasSub then emit c [.deliver v] react (sendNext c) { s with last := n }
            else sendNext c { s with last := n } := by
  unfold afterData
  rw [shouldStop_eq, if_pos g]
  rfl

theorem afterData_stop (c : Cfg) (name : List Comp) (note : Option Nat) (react : List Call) (s : St)
    (g : ¬ Going s) : afterData c name note react s = stop s := by
  unfold afterData
  rw [shouldStop_eq, if_neg g]

theorem afterNack_going (c : Cfg) (r : Req) (rnd : Nat) (react : List Call) (s : St) (g : Going s) :
    afterNack c r rnd react s =
      if s.hasNack then emit c [.nacked] react (backoff c r rnd) s else backoff c r rnd s := by
  unfold afterNack
  rw [shouldStop_eq, if_pos g]

theorem afterNack_stop (c : Cfg) (r : Req) (rnd : Nat) (react : List Call) (s : St) (g : ¬ Going s) :
    afterNack c r rnd react s = stop s := by
  unfold afterNack
  rw [shouldStop_eq, if_neg g]

theorem afterTimeout_eq (c : Cfg) (react : List Call) (s : St) :
    afterTimeout c react s =
      if Going s then emit c [.timedOut] react (sendInitial c) s else stop s := by
  unfold afterTimeout
  rw [shouldStop_eq]
  by_cases g : Going s
  · rw [if_pos g, if_pos g]
  · rw [if_neg g, if_neg g]

theorem inert_deliver (v : Nat) : Inert (.deliver v) := ⟨fun _ => rfl, fun _ h => by cases h⟩
theorem inert_decodeError : Inert .decodeError := ⟨fun _ => rfl, fun _ h => by cases h⟩
theorem inert_nacked : Inert .nacked := ⟨fun _ => rfl, fun _ h => by cases h⟩
theorem inert_timedOut : Inert .timedOut := ⟨fun _ => rfl, fun _ h => by cases h⟩

theorem afterData_good (c : Cfg) (name : List Comp) (note : Option Nat) (react : List Call) (s : St)
    (h : Own s) :
    ((afterData c name note react s).1.dead = s.dead → Calm s (afterData c name note react s)) ∧
      Own (afterData c name note react s).1 := by
  by_cases g : Going s
  · rw [afterData_going c _ _ _ _ g]
    cases hl : name.getLast? with
    | none =>
      refine ⟨fun hd => ⟨rfl, by simp, rfl, rfl, rfl, hd⟩, h⟩
    | some x =>
      dsimp only
      cases hc : Conv.sequence.to c.conv x with
      | none =>
        exact ⟨fun _ => emit_calm c _ inert_decodeError _ _ _ h (sendInitial_calm c),
          emit_own c _ _ _ _ h (sendInitial_own c)⟩
      | some n =>
        dsimp only
        have h' : Own { s with last := n } := h
        have up : ∀ {q}, Calm { s with last := n } q → Calm s q :=
          fun k => ⟨k.track, k.quiet, k.timer, k.att, k.nack, k.dead⟩
        cases note with
        | none =>
          exact ⟨fun _ => up (emit_calm c _ inert_decodeError _ _ _ h' (sendInitial_calm c)),
            emit_own c _ _ _ _ h' (sendInitial_own c)⟩
        | some v =>
          dsimp only
          by_cases hs : s.hasSub = true
          · rw [if_pos hs]
            exact ⟨fun _ => up (emit_calm c _ (inert_deliver v) _ _ _ h' (sendNext_calm c)),
              emit_own c _ _ _ _ h' (sendNext_own c)⟩
          · rw [if_neg hs]
            exact ⟨fun _ => up (sendNext_calm c _ h'), sendNext_own c _ h'⟩
  · rw [afterData_stop c _ _ _ _ g]
    exact ⟨fun _ => stop_calm s h, stop_own s h⟩

theorem afterTimeout_good (c : Cfg) (react : List Call) (s : St) (h : Own s) :
    Calm s (afterTimeout c react s) ∧ Own (afterTimeout c react s).1 := by
  rw [afterTimeout_eq]
  by_cases g : Going s
  · rw [if_pos g]
    exact ⟨emit_calm c _ inert_timedOut _ _ _ h (sendInitial_calm c),
      emit_own c _ _ _ _ h (sendInitial_own c)⟩
  · rw [if_neg g]
    exact ⟨stop_calm s h, stop_own s h⟩

/-- What a back-off does. -/
theorem backoff_good (c : Cfg) (r : Req) (rnd : Nat) (s : St) (hd : (backoff c r rnd s).1.dead = false) :
    r.name ≠ [] ∧
    (∃ k, k = (if s.lastNack = (seqOf c r.name).getD 0 then s.attempts + 1 else 1) ∧
      (backoff c r rnd s).2 = [.backoff (2 ^ k * 100 + rnd % 100)] ∧
      (backoff c r rnd s).1 = { s with attempts := k, lastNack := (seqOf c r.name).getD 0, timer := true }) := by
  unfold backoff at hd ⊢
  unfold seqOf
  cases hl : r.name.getLast? with
  | none => rw [hl] at hd; cases hd
  | some x =>
    refine ⟨?_, ?_⟩
    · intro e; rw [e] at hl; cases hl
    · rw [hl] at hd
      dsimp only at hd ⊢
      refine ⟨_, rfl, ?_⟩
      by_cases hb : (exponentialBackoff c x rnd s).2 * 1000000 < 2 ^ 63
      · rw [if_pos hb]; exact ⟨rfl, rfl⟩
      · rw [if_neg hb] at hd; cases hd

theorem backoff_own (c : Cfg) (r : Req) (rnd : Nat) (s : St) (h : Own s) : Own (backoff c r rnd s).1 := by
  unfold backoff
  cases r.name.getLast? with
  | none => exact h
  | some x =>
    dsimp only
    split
    · exact h
    · exact h

/-- Effect of a Nack that leads to a back-off. -/
structure Backed (c : Cfg) (r : Req) (s : St) (q : St × List Out) : Prop where
  track : q.2.foldl track s.pending = q.1.pending
  timer : q.1.timer = true
  out : ∃ k pre rnd, k = (if s.lastNack = (seqOf c r.name).getD 0 then s.attempts + 1 else 1) ∧
    q.2 = pre ++ [.backoff (2 ^ k * 100 + rnd % 100)] ∧ (∀ o ∈ pre, ∀ ms, o ≠ .backoff ms) ∧
    q.1.attempts = k
  nack : q.1.lastNack = (seqOf c r.name).getD 0
  dead : q.1.dead = s.dead

theorem afterNack_good (c : Cfg) (r : Req) (rnd : Nat) (react : List Call) (s : St) (h : Own s) :
    (s.dead = false → (afterNack c r rnd react s).1.dead = false →
      (¬ Going s ∧ Calm s (afterNack c r rnd react s)) ∨
        (Going s ∧ Backed c r s (afterNack c r rnd react s))) ∧
      Own (afterNack c r rnd react s).1 := by
  by_cases g : Going s
  · rw [afterNack_going c _ _ _ _ g]
    cases hn : s.hasNack with
    | false =>
      refine ⟨fun hs hd => Or.inr ⟨g, ?_⟩, backoff_own c r rnd s h⟩
      simp only [Bool.false_eq_true, if_false] at hd ⊢
      obtain ⟨-, k, hk, ho, he⟩ := backoff_good c r rnd s hd
      refine ⟨?_, ?_, ⟨k, [], rnd, hk, by rw [ho]; rfl, by simp, by rw [he]⟩, by rw [he], by rw [he]⟩
      · rw [ho, he]; rfl
      · rw [he]
    | true =>
      refine ⟨fun hs hd => Or.inr ⟨g, ?_⟩, emit_own c _ _ _ _ h (backoff_own c r rnd)⟩
      simp only [if_true] at hd ⊢
      obtain ⟨a1, -, -, -⟩ := calls_good c s h react
      obtain ⟨-, k, hk, ho, he⟩ := backoff_good c r rnd _ hd
      rw [a1.nack, a1.att] at hk
      have e1 : (emit c [.nacked] react (backoff c r rnd) s).1 = (backoff c r rnd (calls c s react).1).1 := rfl
      have e2 : (emit c [.nacked] react (backoff c r rnd) s).2 =
          [.nacked] ++ (calls c s react).2 ++ (backoff c r rnd (calls c s react).1).2 := rfl
      refine ⟨?_, ?_, ⟨k, [.nacked] ++ (calls c s react).2, rnd, hk, by rw [e2, ho], ?_, by rw [e1, he]⟩,
        by rw [e1, he], by rw [e1, he]; exact a1.dead⟩
      · rw [e1, e2, ho, he, List.foldl_append, List.foldl_append]
        exact a1.track
      · rw [e1, he]
      · intro o hm
        rcases List.mem_append.1 hm with hm | hm
        · simp only [List.mem_singleton] at hm; subst hm; exact inert_nacked.2
        · exact a1.quiet o hm
  · rw [afterNack_stop c _ _ _ _ g]
    exact ⟨fun _ _ => Or.inl ⟨g, stop_calm s h⟩, stop_own s h⟩

/-! ### One event -/

/-- The event does not concern the back-off, apart from the timer itself. -/
structure Rest (s : St) (e : Ev) (q : St × List Out) : Prop where
  quiet : ∀ o ∈ q.2, ∀ ms, o ≠ .backoff ms
  timer : q.1.timer = (match e with | .timer => false | _ => s.timer)
  att : q.1.attempts = s.attempts
  nack : q.1.lastNack = s.lastNack

theorem act_own (c : Cfg) (s : St) (e : Ev) (h : Own s) : Own (act c s e).1 := by
  have h0 : Own { s with pending := none } := fun h => by cases h
  cases e with
  | call x => exact (call_good c s h x).2.1
  | data name note react =>
    cases hp : s.pending with
    | none => simp only [act, hp]; exact h
    | some r => simp only [act, hp]; exact (afterData_good c name note react _ h0).2
  | nack rnd react =>
    cases hp : s.pending with
    | none => simp only [act, hp]; exact h
    | some r => simp only [act, hp]; exact (afterNack_good c r rnd react _ h0).2
  | timeout react =>
    cases hp : s.pending with
    | none => simp only [act, hp]; exact h
    | some r => simp only [act, hp]; exact (afterTimeout_good c react _ h0).2
  | timer =>
    simp only [act]
    by_cases ht : s.timer = true
    · rw [if_pos ht]; exact sendInitial_own c _ h
    · rw [if_neg ht]; exact h

theorem act_eff (c : Cfg) (s : St) (e : Ev) (h : Own s) (hs : s.dead = false)
    (hd : (act c s e).1.dead = false) :
    (act c s e).1.pending = (act c s e).2.foldl track (if answers e then none else s.pending) ∧
    (Rest s e (act c s e) ∨
      ∃ rnd react r, e = .nack rnd react ∧ s.pending = some r ∧
        Backed c r { s with pending := none } (act c s e)) := by
  have h0 : Own { s with pending := none } := fun h => by cases h
  cases e with
  | call x =>
    have k := (call_good c s h x).1
    exact ⟨k.track.symm, Or.inl ⟨k.quiet, k.timer, k.att, k.nack⟩⟩
  | data name note react =>
    cases hp : s.pending with
    | none => simp only [act, hp]; exact ⟨rfl, Or.inl ⟨by simp, rfl, rfl, rfl⟩⟩
    | some r =>
      simp only [act, hp] at hd ⊢
      have k := (afterData_good c name note react _ h0).1 (hd.trans hs.symm)
      exact ⟨k.track.symm, Or.inl ⟨k.quiet, k.timer, k.att, k.nack⟩⟩
  | nack rnd react =>
    cases hp : s.pending with
    | none => simp only [act, hp]; exact ⟨rfl, Or.inl ⟨by simp, rfl, rfl, rfl⟩⟩
    | some r =>
      simp only [act, hp] at hd ⊢
      rcases (afterNack_good c r rnd react _ h0).1 hs hd with ⟨-, k⟩ | ⟨-, k⟩
      · exact ⟨k.track.symm, Or.inl ⟨k.quiet, k.timer, k.att, k.nack⟩⟩
      · exact ⟨k.track.symm, Or.inr ⟨rnd, react, r, rfl, rfl, k⟩⟩
  | timeout react =>
    cases hp : s.pending with
    | none => simp only [act, hp]; exact ⟨rfl, Or.inl ⟨by simp, rfl, rfl, rfl⟩⟩
    | some r =>
      simp only [act, hp] at hd ⊢
      have k := (afterTimeout_good c react _ h0).1
      exact ⟨k.track.symm, Or.inl ⟨k.quiet, k.timer, k.att, k.nack⟩⟩
  | timer =>
    simp only [act]
    by_cases ht : s.timer = true
    · rw [if_pos ht]
      have k := sendInitial_calm c { s with timer := false } h
      exact ⟨k.track.symm, Or.inl ⟨k.quiet, k.timer, k.att, k.nack⟩⟩
    · rw [if_neg ht]
      exact ⟨rfl, Or.inl ⟨by simp, by simpa using ht, rfl, rfl⟩⟩

/-! ### Histories -/

theorem outstanding_snoc (l : Log) (e : Ev) (o : List Out) :
    outstanding (l ++ [(e, o)]) = o.foldl track (if answers e then none else outstanding l) := by
  simp [outstanding, List.foldl_append]

/-- Is there a back-off among the observations? -/
def backs (o : List Out) : Bool := o.any (fun o => match o with | .backoff _ => true | _ => false)

theorem backs_false {o : List Out} (h : ∀ x ∈ o, ∀ ms, x ≠ .backoff ms) : backs o = false := by
  unfold backs
  rw [List.any_eq_false]
  intro x hx
  cases x <;> simp
  exact h _ hx _ rfl

theorem backs_true {o : List Out} : backs o = true ↔ ∃ ms, Out.backoff ms ∈ o := by
  unfold backs
  rw [List.any_eq_true]
  constructor
  · rintro ⟨x, hx, h⟩
    cases x <;> simp at h
    exact ⟨_, hx⟩
  · rintro ⟨ms, h⟩
    exact ⟨_, h, rfl⟩

theorem waiting_fold (o : List Out) (w : Bool) :
    o.foldl (fun w o => match o with | .backoff _ => true | _ => w) w = (w || backs o) := by
  induction o generalizing w with
  | nil => simp [backs]
  | cons x xs ih =>
    rw [List.foldl_cons, ih]
    cases x <;> simp [backs]

theorem waiting_snoc (l : Log) (e : Ev) (o : List Out) :
    waiting (l ++ [(e, o)]) = ((match e with | .timer => false | _ => waiting l) || backs o) := by
  simp only [waiting, List.foldl_append, List.foldl_cons, List.foldl_nil]
  exact waiting_fold o _

/-- The fold of `nackNums`. -/
def nackStep (c : Cfg) (a : Option Req × List Nat) (x : Ev × List Out) : Option Req × List Nat :=
  (x.2.foldl track (if answers x.1 then none else a.1),
    if backs x.2 then ((a.1.bind fun r => seqOf c r.name).getD 0) :: a.2 else a.2)

theorem nackNums_eq (c : Cfg) (l : Log) : nackNums c l = (l.foldl (nackStep c) (none, [])).2 := rfl

theorem nackStep_fst (c : Cfg) (l : Log) (a : Option Req × List Nat) :
    (l.foldl (nackStep c) a).1 =
      l.foldl (fun p x => x.2.foldl track (if answers x.1 then none else p)) a.1 := by
  induction l generalizing a with
  | nil => rfl
  | cons x xs ih => rw [List.foldl_cons, List.foldl_cons, ih]; rfl

theorem nackNums_snoc (c : Cfg) (l : Log) (e : Ev) (o : List Out) :
    nackNums c (l ++ [(e, o)]) =
      if backs o then (((outstanding l).bind fun r => seqOf c r.name).getD 0) :: nackNums c l
      else nackNums c l := by
  rw [nackNums_eq, nackNums_eq, List.foldl_append]
  simp only [List.foldl_cons, List.foldl_nil]
  have h := nackStep_fst c l (none, [])
  rw [nackStep, h]
  rfl

/-- The state of the back-off after these Nacks. -/
def BackoffIs (ns : List Nat) (last att : Nat) : Prop :=
  match ns with
  | [] => last = 2 ^ 64 - 1 ∧ att = 1
  | n :: _ => last = n ∧ (att = streak ns ∨ (n = 2 ^ 64 - 1 ∧ att = streak ns + 1))

theorem streak_cons_same (n : Nat) (ns : List Nat) : streak (n :: n :: ns) = streak (n :: ns) + 1 := by
  simp [streak, List.takeWhile_cons]; omega

theorem streak_cons_ne {n m : Nat} (h : n ≠ m) (ns : List Nat) : streak (n :: m :: ns) = 1 := by
  simp [streak, List.takeWhile_cons, Ne.symm h]

/-- The state agrees with the history. -/
structure Inv (c : Cfg) (l : Log) (s : St) : Prop where
  own : Own s
  pending : s.pending = outstanding l
  timer : s.timer = waiting l
  back : BackoffIs (nackNums c l) s.lastNack s.attempts
  live : s.running = true → s.pending.isSome ∨ s.timer = true

theorem back_next {ns : List Nat} {last att n : Nat} (h : BackoffIs ns last att) :
    BackoffIs (n :: ns) n (if last = n then att + 1 else 1) := by
  refine ⟨rfl, ?_⟩
  cases ns with
  | nil =>
    obtain ⟨rfl, rfl⟩ := h
    by_cases e : 2 ^ 64 - 1 = n
    · rw [if_pos e]; exact Or.inr ⟨e.symm, rfl⟩
    · rw [if_neg e]; exact Or.inl rfl
  | cons m ms =>
    obtain ⟨rfl, h⟩ := h
    by_cases e : last = n
    · subst e
      rw [if_pos rfl, streak_cons_same]
      rcases h with h | ⟨h1, h2⟩
      · exact Or.inl (by omega)
      · exact Or.inr ⟨h1, by omega⟩
    · rw [if_neg e, streak_cons_ne (Ne.symm e)]
      exact Or.inl rfl

theorem act_live (c : Cfg) (s : St) (e : Ev)
    (h : s.running = true → s.pending.isSome ∨ s.timer = true)
    (hd : (act c s e).1.dead = false) :
    (act c s e).1.running = true → (act c s e).1.pending.isSome ∨ (act c s e).1.timer = true := by
  have init : ∀ q, (sendInitial c q).1.running = true →
      (sendInitial c q).1.pending.isSome ∨ (sendInitial c q).1.timer = true := by
    intro q hq
    rw [(sendInitial_run c q hq).1]; exact Or.inl rfl
  have next : ∀ q, (sendNext c q).1.running = true →
      (sendNext c q).1.pending.isSome ∨ (sendNext c q).1.timer = true := by
    intro q hq
    rw [(sendNext_run c q hq).1]; exact Or.inl rfl
  have halt : ∀ q, (stop q).1.running = true →
      (stop q).1.pending.isSome ∨ (stop q).1.timer = true := by
    intro q hq
    rw [stop_running] at hq; cases hq
  have wait : ∀ r rnd q, (backoff c r rnd q).1.dead = false → (backoff c r rnd q).1.running = true →
      (backoff c r rnd q).1.pending.isSome ∨ (backoff c r rnd q).1.timer = true := by
    intro r rnd q hq _
    obtain ⟨-, k, -, -, he⟩ := backoff_good c r rnd q hq
    rw [he]; exact Or.inr rfl
  cases e with
  | call x =>
    cases x with
    | start =>
      simp only [act, call, start]
      by_cases hr : s.running = true
      · rw [if_pos hr]; exact h
      · rw [if_neg hr]; exact init _
    | stop => exact halt s
    | subscribe b => exact h
    | listenNack b => exact h
  | data name note react =>
    cases hp : s.pending with
    | none => simp only [act, hp]; rw [hp] at h; exact h
    | some r =>
      simp only [act, hp] at hd ⊢
      by_cases g : Going { s with pending := none }
      · rw [afterData_going c _ _ _ _ g] at hd ⊢
        cases hl : name.getLast? with
        | none => rw [hl] at hd; cases hd
        | some x =>
          dsimp only
          cases hc : Conv.sequence.to c.conv x with
          | none => exact init _
          | some n =>
            cases note with
            | none => exact init _
            | some v =>
              dsimp only
              by_cases hs : s.hasSub = true
              · rw [if_pos hs]; exact next _
              · rw [if_neg hs]; exact next _
      · rw [afterData_stop c _ _ _ _ g]; exact halt _
  | nack rnd react =>
    cases hp : s.pending with
    | none => simp only [act, hp]; rw [hp] at h; exact h
    | some r =>
      simp only [act, hp] at hd ⊢
      by_cases g : Going { s with pending := none }
      · rw [afterNack_going c _ _ _ _ g] at hd ⊢
        by_cases hs : s.hasNack = true
        · rw [if_pos hs] at hd ⊢; exact wait _ _ _ hd
        · rw [if_neg hs] at hd ⊢; exact wait _ _ _ hd
      · rw [afterNack_stop c _ _ _ _ g]; exact halt _
  | timeout react =>
    cases hp : s.pending with
    | none => simp only [act, hp]; rw [hp] at h; exact h
    | some r =>
      simp only [act, hp] at hd ⊢
      rw [afterTimeout_eq]
      by_cases g : Going { s with pending := none }
      · rw [if_pos g]; exact init _
      · rw [if_neg g]; exact halt _
  | timer =>
    simp only [act]
    by_cases ht : s.timer = true
    · rw [if_pos ht]; exact init _
    · rw [if_neg ht]; exact h

theorem inv_step {c : Cfg} {l : Log} {s : St} (i : Inv c l s) (e : Ev) (hs : s.dead = false)
    (hd : (act c s e).1.dead = false) : Inv c (l ++ [(e, (act c s e).2)]) (act c s e).1 := by
  obtain ⟨hp, hr⟩ := act_eff c s e i.own hs hd
  refine ⟨act_own c s e i.own, ?_, ?_, ?_, act_live c s e i.live hd⟩
  · rw [outstanding_snoc, ← i.pending]; exact hp
  · rw [waiting_snoc]
    rcases hr with hr | ⟨rnd, react, r, rfl, hq, hr⟩
    · rw [hr.timer, backs_false hr.quiet, Bool.or_false, ← i.timer]
    · obtain ⟨k, pre, rn, -, ho, -, -⟩ := hr.out
      have : backs (act c s (.nack rnd react)).2 = true := by
        rw [backs_true, ho]; exact ⟨2 ^ k * 100 + rn % 100, by simp⟩
      rw [this, Bool.or_true]; exact hr.timer
  · rw [nackNums_snoc]
    rcases hr with hr | ⟨rnd, react, r, rfl, hq, hr⟩
    · rw [backs_false hr.quiet, hr.att, hr.nack]; exact i.back
    · obtain ⟨k, pre, rn, hk, ho, -, ha⟩ := hr.out
      have : backs (act c s (.nack rnd react)).2 = true := by
        rw [backs_true, ho]; exact ⟨2 ^ k * 100 + rn % 100, by simp⟩
      rw [this, if_pos rfl, ← i.pending, hq, hr.nack, ha, hk]
      exact back_next i.back

theorem step_alive {c : Cfg} {s : St} {e : Ev} (h : s.dead = false) : step c s e = act c s e := by
  rw [step, h]; rfl

theorem step_dead {c : Cfg} {s : St} {e : Ev} (h : s.dead = true) : step c s e = (s, []) := by
  rw [step, h]; rfl

theorem inv_init (c : Cfg) : Inv c [] init :=
  ⟨(fun h => by cases h), rfl, rfl, ⟨rfl, rfl⟩, (fun h => by cases h)⟩

/-- Undefined behaviour stays. -/
theorem alive_prefix {c : Cfg} {a : List Ev} {e : Ev} (h : (run c (a ++ [e])).1.dead = false) :
    (run c a).1.dead = false := by
  rw [run_snoc] at h
  rcases Bool.eq_false_or_eq_true (run c a).1.dead with hd | hd
  · rw [step_dead hd] at h; exact h
  · exact hd

theorem inv_run (c : Cfg) (es : List Ev) : (run c es).1.dead = false → Inv c (run c es).2 (run c es).1 := by
  suffices H : ∀ (s : St) (l : Log), Inv c l s → (runFrom c s es).1.dead = false →
      Inv c (l ++ (runFrom c s es).2) (runFrom c s es).1 from
    fun h => by simpa [run] using H init [] (inv_init c) h
  induction es with
  | nil => intro s l i _; simpa [runFrom] using i
  | cons e es ih =>
    intro s l i h
    rcases Bool.eq_false_or_eq_true s.dead with hd | hd
    · have : ∀ es, (runFrom c s es).1 = s := by
        intro es
        induction es with
        | nil => rfl
        | cons e es ih => simp only [runFrom, step_dead hd, ih]
      rw [this] at h; rw [hd] at h; cases h
    · simp only [runFrom, step_alive hd] at h ⊢
      rcases Bool.eq_false_or_eq_true (act c s e).1.dead with hk | hk
      · have : ∀ es, (runFrom c (act c s e).1 es).1 = (act c s e).1 := by
          intro es
          induction es with
          | nil => rfl
          | cons e' es ih => simp only [runFrom, step_dead hk, ih]
        rw [this] at h; rw [hk] at h; cases h
      · have := ih _ _ (inv_step i e hd hk) h
        simpa using this

end Ndn.Notify
