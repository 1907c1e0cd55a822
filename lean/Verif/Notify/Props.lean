import Verif.Notify.Lemmas
import Verif.Replay.Lemmas

/-!
# C68: the notification subscriber

Histories are lists of events (`Ev`); `run c es` is a fresh subscriber after the history `es`,
with the observations.  `Spec.outstanding`, `Spec.waiting` and `Spec.nackNums` read the
outstanding Interest, the pending back-off timer and the Nacked numbers off the observations.
`(run c es).1.running` is `isRunning()`; `hasSub` / `hasNack` say whether `onNotification` /
`onNack` have handlers; `dead` is set when something undefined has happened.
-/

namespace Ndn.Notify
open Ndn.Name Ndn.Notify.Spec

/-- A stream `/A` with typed naming. -/
def exCfg : Cfg :=
  { pfx := [⟨8, [0x41]⟩], lifetime := 60000,
    conv := { encodeMarker := false, decodeMarker := true, decodeTyped := true } }

/-- A Data packet of the stream. -/
def exData (n : Nat) : List Comp := exCfg.pfx ++ [Name.Spec.convComp false .sequence n]

/-- The observations during event `e` after the history `es`. -/
def Spec.during (c : Cfg) (es : List Ev) (e : Ev) : List Out :=
  ((run c (es ++ [e])).2.getLast?.map (·.2)).getD []

/-- An observation that is an initial Interest, or the cancelling of an Interest: all that calls
of `start` and `stop` by a handler can cause. -/
def Spec.Restart (c : Cfg) (o : Out) : Prop :=
  (∃ old, o = .express (initialReq c) old) ∨ (∃ r, o = .cancel r)

theorem during_eq (c : Cfg) (es : List Ev) (e : Ev) :
    during c es e = (step c (run c es).1 e).2 := by
  simp [during, run_snoc]

theorem outstanding_run {c : Cfg} {es : List Ev} (h : (run c es).1.dead = false) :
    outstanding (run c es).2 = (run c es).1.pending := (inv_run c es h).pending.symm

theorem own_run {c : Cfg} {es : List Ev} (h : (run c es).1.dead = false) :
    (run c es).1.running = false → (run c es).1.pending = none := by
  intro hr
  cases hp : (run c es).1.pending with
  | none => rfl
  | some r => have := (inv_run c es h).own (by rw [hp]; rfl); rw [hr] at this; cases this

theorem mem_calls_restart {c : Cfg} {s : St} (h : Own s) {xs : List Call} :
    ∀ o ∈ (calls c s xs).2, Restart c o := (calls_good c s h xs).2.2.2

/-- **C68**: when a notification with number `n` arrives, it is delivered, and the subscriber,
unless it is stopped (by a handler, or because no handler is left), then requests exactly number
`n + 1` (as a 64-bit number) and nothing else; whatever the handlers did before. -/
theorem C68_next (c : Cfg) (es : List Ev) (name : List Comp) (n v : Nat) (react : List Call) (r : Req)
    (alive : (run c es).1.dead = false) (hr : outstanding (run c es).2 = some r)
    (hs : (run c es).1.hasSub = true) (hn : seqOf c name = some n) :
    let e := Ev.data name (some v) react
    (run c (es ++ [e])).1.dead = false ∧
    ∃ mid last, during c es e = .deliver v :: mid ++ last ∧ (∀ o ∈ mid, Restart c o) ∧
      ((run c (es ++ [e])).1.running = true →
        (∃ old, last = [.express (numberedReq c ((n + 1) % 2 ^ 64)) old]) ∧
        outstanding (run c (es ++ [e])).2 = some (numberedReq c ((n + 1) % 2 ^ 64))) ∧
      ((run c (es ++ [e])).1.running = false →
        (∀ o ∈ last, ∃ r, o = .cancel r) ∧ outstanding (run c (es ++ [e])).2 = none) := by
  intro e
  have i := inv_run c es alive
  have hp : (run c es).1.pending = some r := by rw [← outstanding_run alive]; exact hr
  have hrun : (run c es).1.running = true := i.own (by rw [hp]; rfl)
  have g : Going { (run c es).1 with pending := none } := ⟨hrun, Or.inl hs⟩
  have h0 : Own { (run c es).1 with pending := none, last := n } := fun h => by cases h
  obtain ⟨x, hl, hx⟩ : ∃ x, name.getLast? = some x ∧ Conv.sequence.to c.conv x = some n := by
    unfold seqOf at hn
    cases hl : name.getLast? with
    | none => rw [hl] at hn; cases hn
    | some x => rw [hl] at hn; exact ⟨x, rfl, hn⟩
  have hact : step c (run c es).1 e =
      emit c [.deliver v] react (sendNext c) { (run c es).1 with pending := none, last := n } := by
    rw [step_alive alive]
    simp only [e, act, hp]
    rw [afterData_going c _ _ _ _ g, hl]
    dsimp only
    rw [hx]
    dsimp only
    rw [if_pos hs]
  obtain ⟨a1, a2, a3, a4⟩ := calls_good c _ h0 react
  have k := sendNext_calm c _ a2
  have hdead : (run c (es ++ [e])).1.dead = false := by
    rw [run_snoc, hact]; exact (k.dead.trans a1.dead).trans alive
  have hst : (run c (es ++ [e])).1 =
      (sendNext c (calls c { (run c es).1 with pending := none, last := n } react).1).1 := by
    rw [run_snoc, hact]; rfl
  refine ⟨hdead, (calls c { (run c es).1 with pending := none, last := n } react).2,
    (sendNext c (calls c { (run c es).1 with pending := none, last := n } react).1).2, ?_, a4, ?_, ?_⟩
  · rw [during_eq, hact]; rfl
  · intro hr'
    rw [outstanding_run hdead]
    rw [hst] at hr' ⊢
    obtain ⟨q1, q2⟩ := sendNext_run c _ hr'
    rw [a3] at q1 q2
    exact ⟨⟨_, q2⟩, q1⟩
  · intro hr'
    rw [outstanding_run hdead, own_run hdead hr']
    refine ⟨?_, rfl⟩
    rw [hst] at hr'
    rw [sendNext_eq] at hr' ⊢
    by_cases g' : Going (calls c { (run c es).1 with pending := none, last := n } react).1
    · rw [if_pos g'] at hr'; exact absurd g'.1 (by rw [hr']; simp)
    · rw [if_neg g']
      intro o ho
      unfold stop at ho
      split at ho
      · split at ho
        · simp only [List.mem_singleton] at ho; exact ⟨_, ho⟩
        · cases ho
      · cases ho

/-- **C68**: as `C68_next`, when the handlers leave the subscriber alone: one delivery, one
Interest. -/
theorem C68_next_plain (c : Cfg) (es : List Ev) (name : List Comp) (n v : Nat) (r : Req)
    (alive : (run c es).1.dead = false) (hr : outstanding (run c es).2 = some r)
    (hs : (run c es).1.hasSub = true) (hn : seqOf c name = some n) :
    during c es (.data name (some v) []) =
      [.deliver v, .express (numberedReq c ((n + 1) % 2 ^ 64)) none] := by
  have i := inv_run c es alive
  have hp : (run c es).1.pending = some r := by rw [← outstanding_run alive]; exact hr
  have hrun : (run c es).1.running = true := i.own (by rw [hp]; rfl)
  have g : Going { (run c es).1 with pending := none } := ⟨hrun, Or.inl hs⟩
  have g' : Going { (run c es).1 with pending := none, last := n } := g
  obtain ⟨x, hl, hx⟩ : ∃ x, name.getLast? = some x ∧ Conv.sequence.to c.conv x = some n := by
    unfold seqOf at hn
    cases hl : name.getLast? with
    | none => rw [hl] at hn; cases hn
    | some x => rw [hl] at hn; exact ⟨x, rfl, hn⟩
  rw [during_eq, step_alive alive]
  simp only [act, hp]
  rw [afterData_going c _ _ _ _ g, hl]
  dsimp only
  rw [hx]
  dsimp only
  rw [if_pos hs]
  simp only [emit, calls, List.append_nil]
  rw [sendNext_eq, if_pos g']
  rfl

/-- **C68**: with only a Nack handler left, notifications are not delivered to anybody, but the
subscriber follows the stream. -/
theorem C68_next_unheard (c : Cfg) (es : List Ev) (name : List Comp) (n v : Nat) (react : List Call)
    (r : Req) (alive : (run c es).1.dead = false) (hr : outstanding (run c es).2 = some r)
    (hs : (run c es).1.hasSub = false) (hk : (run c es).1.hasNack = true) (hn : seqOf c name = some n) :
    during c es (.data name (some v) react) =
      [.express (numberedReq c ((n + 1) % 2 ^ 64)) none] := by
  have i := inv_run c es alive
  have hp : (run c es).1.pending = some r := by rw [← outstanding_run alive]; exact hr
  have hrun : (run c es).1.running = true := i.own (by rw [hp]; rfl)
  have g : Going { (run c es).1 with pending := none } := ⟨hrun, Or.inr hk⟩
  have g' : Going { (run c es).1 with pending := none, last := n } := g
  obtain ⟨x, hl, hx⟩ : ∃ x, name.getLast? = some x ∧ Conv.sequence.to c.conv x = some n := by
    unfold seqOf at hn
    cases hl : name.getLast? with
    | none => rw [hl] at hn; cases hn
    | some x => rw [hl] at hn; exact ⟨x, rfl, hn⟩
  rw [during_eq, step_alive alive]
  simp only [act, hp]
  rw [afterData_going c _ _ _ _ g, hl]
  dsimp only
  rw [hx]
  dsimp only
  rw [if_neg (by rw [hs]; simp), sendNext_eq, if_pos g']

example :
    let es : List Ev := [.call (.listenNack true), .call .start]
    (run exCfg es).1.dead = false ∧ outstanding (run exCfg es).2 = some (initialReq exCfg) ∧
    (run exCfg es).1.hasSub = false ∧ (run exCfg es).1.hasNack = true ∧
    during exCfg es (.data (exData 5) (some 55) []) = [.express (numberedReq exCfg 6) none] := by
  decide +kernel

/-- Events that should send the subscriber back to the initial Interest at once, and what the
application is told. -/
def Spec.FallsBack (c : Cfg) (e : Ev) (told : Out) : Prop :=
  (∃ name note react, e = .data name note react ∧ name ≠ [] ∧ (seqOf c name = none ∨ note = none) ∧
    told = .decodeError) ∨
  (∃ react, e = .timeout react ∧ told = .timedOut)

/-- **C68**: a packet that cannot be decoded and a timeout make the subscriber report it and fall
back to the initial Interest, unless it is stopped; nothing is delivered. -/
theorem C68_fallback (c : Cfg) (es : List Ev) (e : Ev) (told : Out) (r : Req)
    (alive : (run c es).1.dead = false) (hr : outstanding (run c es).2 = some r)
    (hs : (run c es).1.hasSub = true ∨ (run c es).1.hasNack = true) (he : FallsBack c e told) :
    (run c (es ++ [e])).1.dead = false ∧
    (∃ rest, during c es e = told :: rest ∧ ∀ o ∈ rest, Restart c o) ∧
      ((run c (es ++ [e])).1.running = true →
        (∃ old, (during c es e).getLast? = some (.express (initialReq c) old)) ∧
        outstanding (run c (es ++ [e])).2 = some (initialReq c)) ∧
      ((run c (es ++ [e])).1.running = false → outstanding (run c (es ++ [e])).2 = none) := by
  have i := inv_run c es alive
  have hp : (run c es).1.pending = some r := by rw [← outstanding_run alive]; exact hr
  have hrun : (run c es).1.running = true := i.own (by rw [hp]; rfl)
  have g : Going { (run c es).1 with pending := none } := ⟨hrun, hs⟩
  obtain ⟨n, react, hact⟩ : ∃ n react, step c (run c es).1 e =
      emit c [told] react (sendInitial c) { (run c es).1 with pending := none, last := n } := by
    rw [step_alive alive]
    rcases he with ⟨name, note, react, rfl, hne, hx, rfl⟩ | ⟨react, rfl, rfl⟩
    · simp only [act, hp]
      rw [afterData_going c _ _ _ _ g]
      unfold seqOf at hx
      cases hl : name.getLast? with
      | none => exact absurd (List.getLast?_eq_none_iff.1 hl) hne
      | some x =>
        rw [hl] at hx
        dsimp only at hx ⊢
        cases hc : Conv.sequence.to c.conv x with
        | none => exact ⟨(run c es).1.last, react, rfl⟩
        | some n =>
          rw [hc] at hx
          rcases hx with hx | rfl
          · cases hx
          · exact ⟨n, react, rfl⟩
    · simp only [act, hp]
      rw [afterTimeout_eq, if_pos g]
      exact ⟨(run c es).1.last, react, rfl⟩
  have h0 : Own { (run c es).1 with pending := none, last := n } := fun h => by cases h
  obtain ⟨a1, a2, a3, a4⟩ := calls_good c _ h0 react
  have k := sendInitial_calm c _ a2
  have hdead : (run c (es ++ [e])).1.dead = false := by
    rw [run_snoc, hact]; exact (k.dead.trans a1.dead).trans alive
  have hst : (run c (es ++ [e])).1 =
      (sendInitial c (calls c { (run c es).1 with pending := none, last := n } react).1).1 := by
    rw [run_snoc, hact]; rfl
  have hdu : during c es e = told :: ((calls c { (run c es).1 with pending := none, last := n } react).2 ++
      (sendInitial c (calls c { (run c es).1 with pending := none, last := n } react).1).2) := by
    rw [during_eq, hact]; rfl
  refine ⟨hdead, ⟨_, hdu, ?_⟩, ?_, ?_⟩
  · intro o ho
    rcases List.mem_append.1 ho with ho | ho
    · exact a4 o ho
    · exact sendInitial_plain c _ o ho
  · intro hr'
    rw [outstanding_run hdead]
    rw [hst] at hr' ⊢
    obtain ⟨q1, q2⟩ := sendInitial_run c _ hr'
    refine ⟨⟨(calls c { (run c es).1 with pending := none, last := n } react).1.pending, ?_⟩, q1⟩
    rw [hdu, q2, ← List.cons_append, List.getLast?_append]; rfl
  · intro hr'
    rw [outstanding_run hdead, own_run hdead hr']

/-- **C68**: when the back-off ends, a subscriber that is still running and has a handler sends
the initial Interest. -/
theorem C68_after_backoff (c : Cfg) (es : List Ev)
    (alive : (run c es).1.dead = false) (hw : waiting (run c es).2 = true) :
    (run c (es ++ [.timer])).1.dead = false ∧
    ((run c es).1.running = true → ((run c es).1.hasSub = true ∨ (run c es).1.hasNack = true) →
      during c es .timer = [.express (initialReq c) (outstanding (run c es).2)] ∧
      outstanding (run c (es ++ [.timer])).2 = some (initialReq c)) ∧
    ((run c es).1.running = false → during c es .timer = []) := by
  have i := inv_run c es alive
  have ht : (run c es).1.timer = true := by rw [i.timer]; exact hw
  have hact : step c (run c es).1 .timer = sendInitial c { (run c es).1 with timer := false } := by
    rw [step_alive alive]; simp only [act]; rw [if_pos ht]
  have h0 : Own { (run c es).1 with timer := false } := i.own
  have hdead : (run c (es ++ [.timer])).1.dead = false := by
    rw [run_snoc, hact]; exact (sendInitial_calm c _ h0).dead.trans alive
  refine ⟨hdead, ?_, ?_⟩
  · intro hr hs
    have g : Going { (run c es).1 with timer := false } := ⟨hr, hs⟩
    rw [during_eq, outstanding_run hdead, run_snoc, hact, sendInitial_eq, if_pos g, outstanding_run alive]
    exact ⟨rfl, rfl⟩
  · intro hr
    have g : ¬ Going { (run c es).1 with timer := false } := fun g => by
      have := g.1; rw [hr] at this; cases this
    rw [during_eq, hact, sendInitial_eq, if_neg g]
    unfold stop
    simp [hr]

/-- **C68**: every Interest the subscriber ever sends is the initial one, or the one for number
`n + 1`, sent on receiving the notification with number `n`. -/
theorem C68_requests (c : Cfg) (es : List Ev) (e : Ev) (r : Req) (old : Option Req)
    (h : Out.express r old ∈ during c es e) :
    r = initialReq c ∨ ∃ name v react n, e = .data name (some v) react ∧ seqOf c name = some n ∧
      r = numberedReq c ((n + 1) % 2 ^ 64) := by
  rw [during_eq] at h
  rcases Bool.eq_false_or_eq_true (run c es).1.dead with hd | hd
  · rw [step_dead hd] at h; cases h
  rw [step_alive hd] at h
  have i := inv_run c es hd
  generalize (run c es).1 = s at h i
  have h0 : Own { s with pending := none } := fun h => by cases h
  have plain : ∀ {o}, Plain c o → o = Out.express r old → r = initialReq c := by
    rintro o (⟨_, rfl⟩ | ⟨_, rfl⟩) h
    · injection h with h1 h2; exact h1.symm
    · cases h
  have fin : ∀ {os : List Out}, (∀ o ∈ os, Plain c o) → Out.express r old ∈ os → r = initialReq c :=
    fun ho hm => plain (ho _ hm) rfl
  cases e with
  | call x => exact Or.inl (fin (call_good c s i.own x).2.2.2 h)
  | data name note react =>
    cases hp : s.pending with
    | none => simp only [act, hp] at h; cases h
    | some q =>
      simp only [act, hp] at h
      by_cases g : Going { s with pending := none }
      · rw [afterData_going c _ _ _ _ g] at h
        cases hl : name.getLast? with
        | none => rw [hl] at h; cases h
        | some x =>
          rw [hl] at h
          dsimp only at h
          have em : ∀ (t : Out) (s' : St), Own s' → (∀ r old, t ≠ .express r old) →
              Out.express r old ∈ (emit c [t] react (sendInitial c) s').2 → r = initialReq c := by
            intro t s' hs' ht hm
            simp only [emit, List.cons_append, List.nil_append, List.mem_cons, List.mem_append] at hm
            rcases hm with hm | hm | hm
            · exact absurd hm.symm (ht _ _)
            · exact fin (calls_good c s' hs' react).2.2.2 hm
            · exact fin (sendInitial_plain c _) hm
          cases hc : Conv.sequence.to c.conv x with
          | none =>
            rw [hc] at h
            exact Or.inl (em .decodeError _ h0 (by simp) h)
          | some n =>
            rw [hc] at h
            dsimp only at h
            have h1 : Own { s with pending := none, last := n } := fun h => by cases h
            have nx : ∀ s' : St, s'.last = n → Out.express r old ∈ (sendNext c s').2 →
                r = numberedReq c ((n + 1) % 2 ^ 64) := by
              intro s' hs' hm
              rw [sendNext_eq, hs'] at hm
              by_cases g' : Going s'
              · rw [if_pos g'] at hm
                simp only [List.mem_singleton] at hm
                injection hm
              · rw [if_neg g'] at hm
                unfold stop at hm
                split at hm
                · split at hm <;> simp at hm
                · cases hm
            cases note with
            | none => exact Or.inl (em .decodeError _ h1 (by simp) h)
            | some v =>
              dsimp only at h
              have hq : seqOf c name = some n := by unfold seqOf; rw [hl]; exact hc
              by_cases hs : s.hasSub = true
              · rw [if_pos hs] at h
                simp only [emit, List.cons_append, List.nil_append, List.mem_cons, List.mem_append] at h
                rcases h with h | h | h
                · cases h
                · exact Or.inl (fin (calls_good c _ h1 react).2.2.2 h)
                · exact Or.inr ⟨name, v, react, n, rfl, hq, nx _ (calls_good c _ h1 react).2.2.1 h⟩
              · rw [if_neg hs] at h
                exact Or.inr ⟨name, v, react, n, rfl, hq, nx _ rfl h⟩
      · rw [afterData_stop c _ _ _ _ g] at h
        exact Or.inl (fin (stop_plain c _) h)
  | nack rnd react =>
    cases hp : s.pending with
    | none => simp only [act, hp] at h; cases h
    | some q =>
      simp only [act, hp] at h
      have nb : ∀ s' : St, Out.express r old ∉ (backoff c q rnd s').2 := by
        intro s' hm
        unfold backoff at hm
        split at hm
        · cases hm
        · dsimp only at hm
          split at hm
          · simp at hm
          · cases hm
      by_cases g : Going { s with pending := none }
      · rw [afterNack_going c _ _ _ _ g] at h
        by_cases hs : s.hasNack = true
        · rw [if_pos hs] at h
          simp only [emit, List.cons_append, List.nil_append, List.mem_cons, List.mem_append] at h
          rcases h with h | h | h
          · cases h
          · exact Or.inl (fin (calls_good c _ h0 react).2.2.2 h)
          · exact absurd h (nb _)
        · rw [if_neg hs] at h; exact absurd h (nb _)
      · rw [afterNack_stop c _ _ _ _ g] at h
        exact Or.inl (fin (stop_plain c _) h)
  | timeout react =>
    cases hp : s.pending with
    | none => simp only [act, hp] at h; cases h
    | some q =>
      simp only [act, hp] at h
      rw [afterTimeout_eq] at h
      by_cases g : Going { s with pending := none }
      · rw [if_pos g] at h
        simp only [emit, List.cons_append, List.nil_append, List.mem_cons, List.mem_append] at h
        rcases h with h | h | h
        · cases h
        · exact Or.inl (fin (calls_good c _ h0 react).2.2.2 h)
        · exact Or.inl (fin (sendInitial_plain c _) h)
      · rw [if_neg g] at h
        exact Or.inl (fin (stop_plain c _) h)
  | timer =>
    simp only [act] at h
    by_cases ht : s.timer = true
    · rw [if_pos ht] at h; exact Or.inl (fin (sendInitial_plain c _) h)
    · rw [if_neg ht] at h; cases h

/-- **C68**: a running subscriber is never idle: an Interest is outstanding or a back-off is
pending.  A stopped one has no Interest outstanding. -/
theorem C68_never_idle (c : Cfg) (es : List Ev) (alive : (run c es).1.dead = false) :
    ((run c es).1.running = true →
      (outstanding (run c es).2).isSome = true ∨ waiting (run c es).2 = true) ∧
    ((run c es).1.running = false → outstanding (run c es).2 = none) := by
  have i := inv_run c es alive
  rw [← i.pending, ← i.timer]
  exact ⟨i.live, own_run alive⟩

theorem stopped_from (c : Cfg) (s : St) (h : s.running = false) (hp : s.pending = none) (es : List Ev)
    (hes : ∀ e ∈ es, starts e = false) : (runFrom c s es).2 = es.map (·, []) := by
  induction es generalizing s with
  | nil => rfl
  | cons e es ih =>
    have hstep : (step c s e).2 = [] ∧ (step c s e).1.running = false ∧ (step c s e).1.pending = none := by
      rcases Bool.eq_false_or_eq_true s.dead with hd | hd
      · rw [step_dead hd]; exact ⟨rfl, h, hp⟩
      rw [step_alive hd]
      have he := hes e (List.mem_cons_self ..)
      cases e with
      | call x =>
        cases x with
        | start => simp [starts] at he
        | stop => simp [act, call, stop, h, hp]
        | subscribe b => exact ⟨rfl, h, hp⟩
        | listenNack b => exact ⟨rfl, h, hp⟩
      | data name note react => simp [act, hp, h]
      | nack rnd react => simp [act, hp, h]
      | timeout react => simp [act, hp, h]
      | timer =>
        simp only [act]
        by_cases ht : s.timer = true
        · rw [if_pos ht, sendInitial_eq, if_neg (fun g => by have := g.1; rw [show s.running = false from h] at this; cases this)]
          simp [stop, h, hp]
        · rw [if_neg ht]; exact ⟨rfl, h, hp⟩
    simp only [runFrom, List.map_cons]
    rw [hstep.1, ih _ hstep.2.1 hstep.2.2 (fun e he => hes e (List.mem_cons_of_mem _ he))]

/-- **C68**: `stop` cancels the outstanding Interest, and from then on, until `start` is called
again, nothing is requested and nothing is delivered or reported, whatever happens. -/
theorem C68_stop (c : Cfg) (es es' : List Ev) (alive : (run c es).1.dead = false)
    (h : ∀ e ∈ es', starts e = false) :
    (run c (es ++ .call .stop :: es')).2 =
      (run c es).2 ++ (.call .stop, (outstanding (run c es).2).toList.map Out.cancel) ::
        es'.map (·, []) := by
  have i := inv_run c es alive
  have hs : (step c (run c es).1 (.call .stop)).2 = (outstanding (run c es).2).toList.map Out.cancel := by
    rw [step_alive alive, ← i.pending]
    simp only [act, call, stop]
    cases hr : (run c es).1.running with
    | false => rw [own_run alive hr]; rfl
    | true => cases (run c es).1.pending <;> rfl
  have hp : (step c (run c es).1 (.call .stop)).1.pending = none := by
    rw [step_alive alive]
    simp only [act, call, stop]
    cases hr : (run c es).1.running with
    | false => exact own_run alive hr
    | true => rfl
  rw [run_append]
  simp only [runFrom]
  rw [hs, stopped_from c _ (by rw [step_alive alive]; exact stop_running _) hp es' h]

/-- The hypotheses of the theorems above are met: a subscriber to `/A` that has received the
notifications 5 and 6, and what it does next. -/
example :
    let es : List Ev := [.call (.subscribe true), .call .start, .data (exData 5) (some 55) [],
      .data (exData 6) (some 66) []]
    (run exCfg es).1.dead = false ∧ outstanding (run exCfg es).2 = some (numberedReq exCfg 7) ∧
    (run exCfg es).1.hasSub = true ∧ seqOf exCfg (exData 7) = some 7 ∧
    during exCfg es (.data (exData 7) (some 77) []) =
      [.deliver 77, .express (numberedReq exCfg 8) none] ∧
    during exCfg es (.data (exData 7) (some 77) [.stop]) = [.deliver 77] ∧
    during exCfg es (.data (exData 7) (some 77) [.stop, .start]) =
      [.deliver 77, .express (initialReq exCfg) none,
       .express (numberedReq exCfg 8) (some (initialReq exCfg))] ∧
    during exCfg es (.data (exData 7) none []) =
      [.decodeError, .express (initialReq exCfg) none] ∧
    during exCfg es (.timeout []) = [.timedOut, .express (initialReq exCfg) none] ∧
    ((run exCfg (es ++ [.call .stop, .data (exData 7) (some 77) [], .timer])).2.drop 4).map (·.2) =
      [[.cancel (numberedReq exCfg 7)], [], []] ∧
    starts (.data (exData 7) (some 77) []) = false := by decide +kernel

/-! ### Back-off -/

/-- The delay is the `k`-th back-off: 2^k · 100 ms plus at most 99 ms. -/
def Spec.Backoff (k ms : Nat) : Prop := 2 ^ k * 100 ≤ ms ∧ ms < 2 ^ k * 100 + 100

/-- What one would expect: the back-off after a Nack depends on how many Nacks of the same number
have been received in a row. -/
def C68_backoff_claim : Prop :=
  ∀ (c : Cfg) (es : List Ev) (e : Ev) (ms : Nat),
    (run c (es ++ [e])).1.dead = false → Out.backoff ms ∈ during c es e →
    Backoff (streak (nackNums c (run c (es ++ [e])).2)) ms

theorem backoff_step {c : Cfg} {es : List Ev} {e : Ev} {ms : Nat}
    (alive : (run c (es ++ [e])).1.dead = false) (h : Out.backoff ms ∈ during c es e) :
    Backoff (run c (es ++ [e])).1.attempts ms ∧
    ∃ r rnd react, e = .nack rnd react ∧ outstanding (run c es).2 = some r ∧
      nackNums c (run c (es ++ [e])).2 = (seqOf c r.name).getD 0 :: nackNums c (run c es).2 ∧
      (run c (es ++ [e])).1.attempts =
        (if (run c es).1.lastNack = (seqOf c r.name).getD 0 then (run c es).1.attempts + 1 else 1) := by
  have hd := alive_prefix alive
  have i := inv_run c es hd
  have hdr : during c es e = (act c (run c es).1 e).2 := by rw [during_eq, step_alive hd]
  have hact : (act c (run c es).1 e).1.dead = false := by
    rw [run_snoc, step_alive hd] at alive; exact alive
  rw [hdr] at h
  obtain ⟨-, hr⟩ := act_eff c _ e i.own hd hact
  rcases hr with hr | ⟨rnd, react, r, rfl, hq, hr⟩
  · exact absurd rfl (hr.quiet _ h ms)
  · obtain ⟨k, pre, rn, hk, ho, hpre, ha⟩ := hr.out
    have hst : (run c (es ++ [.nack rnd react])).1 = (act c (run c es).1 (.nack rnd react)).1 := by
      rw [run_snoc, step_alive hd]
    have hms : ms = 2 ^ k * 100 + rn % 100 := by
      rw [ho] at h
      rcases List.mem_append.1 h with h | h
      · exact absurd rfl (hpre _ h ms)
      · simp only [List.mem_singleton] at h; injection h
    rw [hst, ha]
    refine ⟨⟨by omega, by omega⟩, r, rnd, react, rfl, ?_, ?_, hk⟩
    · rw [outstanding_run hd]; exact hq
    · have hb : backs (act c (run c es).1 (.nack rnd react)).2 = true := by
        rw [backs_true]; exact ⟨ms, h⟩
      rw [run_snoc, step_alive hd]
      dsimp only
      rw [nackNums_snoc, if_pos hb, outstanding_run hd, hq]
      rfl

/-- **C68**: the `k`-th Nack in a row of the same number (a Nack of the initial Interest counts as
number 0) is followed by a back-off of 2^k · 100 ms plus less than 100 ms.  Missing: numbers
2^64 - 1, see `C68_backoff_counterexample`. -/
theorem C68_backoff_partial (c : Cfg) (es : List Ev) (e : Ev) (ms : Nat)
    (alive : (run c (es ++ [e])).1.dead = false) (h : Out.backoff ms ∈ during c es e)
    (hn : (nackNums c (run c (es ++ [e])).2).head? ≠ some (2 ^ 64 - 1)) :
    Backoff (streak (nackNums c (run c (es ++ [e])).2)) ms := by
  obtain ⟨hb, r, -, -, -, -, hnn, -⟩ := backoff_step alive h
  have i := (inv_run c _ alive).back
  rw [hnn] at i hn ⊢
  obtain ⟨-, i⟩ := i
  rcases i with i | ⟨i, -⟩
  · rw [i] at hb; exact hb
  · exact absurd (by rw [i]; rfl) hn

theorem quiet_keeps (c : Cfg) (es mid : List Ev) (alive : (run c (es ++ mid)).1.dead = false)
    (h : ∀ x ∈ (runFrom c (run c es).1 mid).2, ∀ ms, Out.backoff ms ∉ x.2) :
    (run c (es ++ mid)).1.lastNack = (run c es).1.lastNack ∧
    (run c (es ++ mid)).1.attempts = (run c es).1.attempts := by
  induction mid generalizing es with
  | nil => simp
  | cons e mid ih =>
    have e1 : es ++ e :: mid = es ++ [e] ++ mid := by simp
    rw [e1] at alive ⊢
    have hx : ∀ (m : List Ev), (run c (es ++ [e] ++ m)).1.dead = false → (run c (es ++ [e])).1.dead = false := by
      intro m
      induction m using Ndn.Replay.snocInd with
      | nil => simp
      | snoc m x ih => intro h; rw [← List.append_assoc] at h; exact ih (alive_prefix h)
    have ha := hx mid alive
    have hd := alive_prefix ha
    have i := inv_run c es hd
    have hst : (run c (es ++ [e])).1 = (act c (run c es).1 e).1 := by rw [run_snoc, step_alive hd]
    simp only [runFrom] at h
    have h1 := h _ (List.mem_cons_self ..)
    rw [step_alive hd] at h1
    have h2 : ∀ x ∈ (runFrom c (run c (es ++ [e])).1 mid).2, ∀ ms, Out.backoff ms ∉ x.2 := by
      intro x hx
      rw [run_snoc] at hx
      exact h x (List.mem_cons_of_mem _ hx)
    obtain ⟨q1, q2⟩ := ih (es ++ [e]) alive h2
    rw [q1, q2, hst]
    rw [hst] at ha
    rcases (act_eff c _ e i.own hd ha).2 with hr | ⟨rnd, react, r, -, -, hr⟩
    · exact ⟨hr.nack, hr.att⟩
    · obtain ⟨k, pre, rn, -, ho, -, -⟩ := hr.out
      exact absurd (by rw [ho]; simp) (h1 (2 ^ k * 100 + rn % 100))

/-- **C68**: the back-off doubles when the next Nack is of the same number, and starts again at
200 ms when it is of a different number. -/
theorem C68_backoff_doubles (c : Cfg) (es mid : List Ev) (e e' : Ev) (ms ms' n n' : Nat) (ns : List Nat)
    (alive : (run c (es ++ [e] ++ mid ++ [e'])).1.dead = false)
    (h : Out.backoff ms ∈ during c es e)
    (hmid : ∀ x ∈ (runFrom c (run c (es ++ [e])).1 mid).2, ∀ ms, Out.backoff ms ∉ x.2)
    (h' : Out.backoff ms' ∈ during c (es ++ [e] ++ mid) e')
    (hn : nackNums c (run c (es ++ [e] ++ mid ++ [e'])).2 = n' :: n :: ns) :
    ∃ k, Backoff k ms ∧ Backoff (if n' = n then k + 1 else 1) ms' := by
  have hx : ∀ (m : List Ev), (run c (es ++ [e] ++ m)).1.dead = false → (run c (es ++ [e])).1.dead = false := by
    intro m
    induction m using Ndn.Replay.snocInd with
    | nil => simp
    | snoc m x ih => intro h; rw [← List.append_assoc] at h; exact ih (alive_prefix h)
  have a2 := alive_prefix alive
  have a1 := hx mid a2
  obtain ⟨b1, r, -, -, -, -, hn1, -⟩ := backoff_step a1 h
  obtain ⟨b2, r', -, -, -, -, hn2, ha2⟩ := backoff_step alive h'
  obtain ⟨q1, q2⟩ := quiet_keeps c (es ++ [e]) mid a2 hmid
  have i2 := (inv_run c _ a2).back
  rw [hn2] at hn
  injection hn with hn3 hn4
  rw [hn4] at i2
  rw [i2.1, hn3, q2] at ha2
  refine ⟨_, b1, ?_⟩
  rw [ha2] at b2
  by_cases hnn : n' = n
  · rw [if_pos hnn]; rw [if_pos hnn.symm] at b2; exact b2
  · rw [if_neg hnn]; rw [if_neg (Ne.symm hnn)] at b2; exact b2

theorem backoff_dead (c : Cfg) (r : Req) (rnd : Nat) (s : St) (hs : s.dead = false) (hr : r.name ≠ [])
    (ha : s.attempts ≤ 35) : (backoff c r rnd s).1.dead = false := by
  unfold backoff
  cases hl : r.name.getLast? with
  | none => exact absurd (List.getLast?_eq_none_iff.1 hl) hr
  | some x =>
    dsimp only
    have : (exponentialBackoff c x rnd s).2 * 1000000 < 2 ^ 63 := by
      unfold exponentialBackoff
      dsimp only
      have h2 : ∀ k, k ≤ 36 → (2 ^ k * 100 + rnd % 100) * 1000000 < 2 ^ 63 := by
        intro k hk
        have : 2 ^ k ≤ 2 ^ 36 := Nat.pow_le_pow_right (by omega) hk
        omega
      split
      · exact h2 _ (by omega)
      · exact h2 _ (by omega)
    rw [if_pos this]
    exact hs

/-- **C68**: a Nack is reported and starts a back-off; no Interest is sent until it ends, unless a
handler restarts the subscriber.  (Up to 35 Nacks in a row; see `C68_delay_counterexample`.) -/
theorem C68_nack_partial (c : Cfg) (es : List Ev) (rnd : Nat) (react : List Call) (r : Req)
    (alive : (run c es).1.dead = false) (hr : outstanding (run c es).2 = some r) (hne : r.name ≠ [])
    (hs : (run c es).1.hasNack = true) (hk : (nackNums c (run c es).2).length ≤ 33) :
    let e := Ev.nack rnd react
    (run c (es ++ [e])).1.dead = false ∧
    ∃ mid ms, during c es e = .nacked :: mid ++ [.backoff ms] ∧ (∀ o ∈ mid, Restart c o) ∧
      waiting (run c (es ++ [e])).2 = true ∧
      (react = [] → mid = [] ∧ outstanding (run c (es ++ [e])).2 = none) := by
  intro e
  have i := inv_run c es alive
  have hp : (run c es).1.pending = some r := by rw [← outstanding_run alive]; exact hr
  have hrun : (run c es).1.running = true := i.own (by rw [hp]; rfl)
  have g : Going { (run c es).1 with pending := none } := ⟨hrun, Or.inr hs⟩
  have h0 : Own { (run c es).1 with pending := none } := fun h => by cases h
  obtain ⟨a1, a2, a3, a4⟩ := calls_good c _ h0 react
  have hatt : (run c es).1.attempts ≤ 35 := by
    have := i.back
    have hst : ∀ ns : List Nat, streak ns ≤ ns.length := by
      intro ns
      cases ns with
      | nil => exact Nat.le_refl _
      | cons n ns =>
        have := (List.takeWhile_sublist (p := fun x => decide (x = n)) (l := ns)).length_le
        simp only [streak, List.length_cons]
        omega
    have h1 := hst (nackNums c (run c es).2)
    unfold BackoffIs at this
    split at this
    · omega
    · rename_i n ns hns
      rw [hns] at h1 hk this
      have h2 := this.2
      omega
  have hd := backoff_dead c r rnd (calls c { (run c es).1 with pending := none } react).1
    (a1.dead.trans alive) hne (by rw [a1.att]; exact hatt)
  have hact : step c (run c es).1 e =
      emit c [.nacked] react (backoff c r rnd) { (run c es).1 with pending := none } := by
    rw [step_alive alive]
    simp only [e, act, hp]
    rw [afterNack_going c _ _ _ _ g, if_pos hs]
  have hdead : (run c (es ++ [e])).1.dead = false := by rw [run_snoc, hact]; exact hd
  obtain ⟨-, k, -, ho, he⟩ := backoff_good c r rnd _ hd
  refine ⟨hdead, (calls c { (run c es).1 with pending := none } react).2, 2 ^ k * 100 + rnd % 100,
    ?_, a4, ?_, ?_⟩
  · rw [during_eq, hact, ← ho]; rfl
  · rw [← (inv_run c _ hdead).timer, run_snoc, hact]
    show (backoff c r rnd _).1.timer = true
    rw [he]
  · intro hre
    subst hre
    refine ⟨rfl, ?_⟩
    rw [outstanding_run hdead, run_snoc, hact]
    show (backoff c r rnd _).1.pending = none
    rw [he]; rfl

/-- **C68**: `start` sends the initial Interest if the subscriber was stopped and has a handler;
without handler it has no effect. -/
theorem C68_start (c : Cfg) (es : List Ev) (alive : (run c es).1.dead = false)
    (hr : (run c es).1.running = false) :
    ((run c es).1.hasSub = true ∨ (run c es).1.hasNack = true →
      during c es (.call .start) = [.express (initialReq c) none] ∧
      (run c (es ++ [.call .start])).1.running = true) ∧
    ((run c es).1.hasSub = false → (run c es).1.hasNack = false →
      during c es (.call .start) = [] ∧ (run c (es ++ [.call .start])).1.running = false) := by
  have hp := own_run alive hr
  have hact : step c (run c es).1 (.call .start) = sendInitial c { (run c es).1 with running := true } := by
    rw [step_alive alive]; simp only [act, call, start]
    rw [if_neg (by rw [hr]; simp)]
  rw [during_eq, run_snoc, hact, sendInitial_eq]
  constructor
  · intro hs
    have g : Going { (run c es).1 with running := true } := ⟨rfl, hs⟩
    rw [if_pos g]
    exact ⟨by rw [show ({ (run c es).1 with running := true } : St).pending = none from hp], rfl⟩
  · intro h1 h2
    have g : ¬ Going { (run c es).1 with running := true } := by
      rintro ⟨-, g | g⟩
      · rw [show ({ (run c es).1 with running := true } : St).hasSub = false from h1] at g; cases g
      · rw [show ({ (run c es).1 with running := true } : St).hasNack = false from h2] at g; cases g
    rw [if_neg g]
    simp [stop, hp]

/-- Three Nacks of the same number, then one of another: 200, 400, 800 and again 200 ms (plus the
random part). -/
example :
    let a : List Ev := [.call (.subscribe true), .call (.listenNack true), .call .start]
    let n : Ev := .nack 1234567 []
    during exCfg a n = [.nacked, .backoff 267] ∧
    during exCfg (a ++ [n, .timer]) n = [.nacked, .backoff 467] ∧
    during exCfg (a ++ [n, .timer, n, .timer]) n = [.nacked, .backoff 867] ∧
    during exCfg (a ++ [n, .timer, n, .timer, n, .timer, .data (exData 5) (some 55) []]) n =
      [.nacked, .backoff 267] ∧
    nackNums exCfg (run exCfg (a ++ [n, .timer, n, .timer, n])).2 = [0, 0, 0] ∧
    waiting (run exCfg (a ++ [n])).2 = true ∧
    during exCfg (a ++ [n]) .timer = [.express (initialReq exCfg) none] := by decide +kernel

/-- **C68**: `start` has no effect on a running subscriber. -/
theorem C68_start_running (c : Cfg) (es : List Ev) (hr : (run c es).1.running = true) :
    during c es (.call .start) = [] ∧ (run c (es ++ [.call .start])).1 = (run c es).1 := by
  rw [during_eq, run_snoc]
  rcases Bool.eq_false_or_eq_true (run c es).1.dead with hd | hd
  · rw [step_dead hd]; exact ⟨rfl, rfl⟩
  · rw [step_alive hd]; simp only [act, call, start]; rw [if_pos hr]; exact ⟨rfl, rfl⟩

/-! ### What is not so -/

/-- What one would expect: the end of a back-off never takes away an outstanding Interest (such
as the one for the next notification). -/
def C68_timer_claim : Prop :=
  ∀ (c : Cfg) (es : List Ev) (r : Req) (old : Option Req), (run c es).1.dead = false →
    Out.express r old ∈ during c es .timer → old = none

/-- Nack, then the application restarts the subscriber, receives notification 5, and the old
back-off ends. -/
def exStale : List Ev :=
  [.call (.subscribe true), .call .start, .nack 0 [], .call .stop, .call .start,
   .data (exData 5) (some 55) []]

/-- **C68 is false of the code**: `stop` leaves the back-off timer running, so after `stop` and
`start` it replaces the Interest for number 6 by the initial Interest. -/
theorem C68_timer_counterexample : ¬ C68_timer_claim := by
  intro h
  have := h exCfg exStale (initialReq exCfg) (some (numberedReq exCfg 6)) (by decide +kernel) (by decide +kernel)
  cases this

/-- After that the same notification can be delivered twice, although there was no Nack, timeout
or decoding error since the subscriber was started. -/
example :
    during exCfg exStale .timer = [.express (initialReq exCfg) (some (numberedReq exCfg 6))] ∧
    during exCfg (exStale ++ [.timer]) (.data (exData 5) (some 55) []) =
      [.deliver 55, .express (numberedReq exCfg 6) none] := by decide +kernel

/-- Nobody calls `start` while a back-off is pending. -/
def Spec.NoEarlyRestart (c : Cfg) (es : List Ev) : Prop :=
  ∀ a e b, es = a ++ e :: b → starts e = true →
    waiting (run c a).2 = false ∧ ∀ rnd react, e ≠ .nack rnd react

theorem calls_quiet (c : Cfg) (s : St) (xs : List Call) (h : Call.start ∉ xs) (hp : s.pending = none) :
    (calls c s xs).1.pending = none := by
  induction xs generalizing s with
  | nil => exact hp
  | cons x xs ih =>
    simp only [calls]
    refine ih _ (fun hm => h (List.mem_cons_of_mem _ hm)) ?_
    cases x with
    | start => exact absurd (List.mem_cons_self ..) h
    | stop => simp only [call, stop]; split <;> first | rfl | exact hp
    | subscribe b => exact hp
    | listenNack b => exact hp

/-- While a back-off is pending, no Interest is. -/
theorem one_thing (c : Cfg) (es : List Ev) (h : NoEarlyRestart c es) :
    (run c es).1.dead = false → (run c es).1.timer = true → (run c es).1.pending = none := by
  induction es using Ndn.Replay.snocInd with
  | nil => intro _ h; cases h
  | snoc es e ih =>
    intro alive ht
    have hd := alive_prefix alive
    have h' : NoEarlyRestart c es := by
      intro a x b hab hx
      exact h a x (b ++ [e]) (by rw [hab]; simp) hx
    have i := inv_run c es hd
    have ih' := ih h' hd
    have hst : (run c (es ++ [e])).1 = (act c (run c es).1 e).1 := by rw [run_snoc, step_alive hd]
    rw [hst] at alive ht ⊢
    have hstart : starts e = true → (run c es).1.timer = false ∧ ∀ rnd react, e ≠ .nack rnd react := by
      intro hx
      have := h es e [] rfl hx
      rw [i.timer]; exact this
    rcases (act_eff c _ e i.own hd alive).2 with hr | ⟨rnd, react, r, rfl, hq, hr⟩
    · have hold : (run c es).1.timer = true ∧ e ≠ .timer := by
        rw [hr.timer] at ht
        cases e <;> first | exact ⟨ht, by simp⟩ | cases ht
      have hp := ih' hold.1
      cases e with
      | call x =>
        cases x with
        | start =>
          have := (hstart (by simp [starts])).1
          rw [hold.1] at this; cases this
        | stop => simp only [act, call, stop]; split <;> first | rfl | exact hp
        | subscribe b => exact hp
        | listenNack b => exact hp
      | data name note react => simp only [act, hp]
      | nack rnd react => simp only [act, hp]
      | timeout react => simp only [act, hp]
      | timer => exact absurd rfl hold.2
    · have hns : Call.start ∉ react := by
        intro hm
        have := (hstart (by simp [starts, hm])).2
        exact absurd rfl (this rnd react)
      have hk := hr.track
      simp only [act, hq] at hk alive ⊢
      by_cases g : Going { (run c es).1 with pending := none }
      · rw [afterNack_going c _ _ _ _ g] at alive ⊢
        by_cases hs : (run c es).1.hasNack = true
        · rw [if_pos hs] at alive ⊢
          obtain ⟨-, k, -, -, he⟩ := backoff_good c r rnd _ alive
          show (backoff c r rnd _).1.pending = none
          rw [he]
          exact calls_quiet c _ react hns rfl
        · rw [if_neg hs] at alive ⊢
          obtain ⟨-, k, -, -, he⟩ := backoff_good c r rnd _ alive
          rw [he]
      · rw [afterNack_stop c _ _ _ _ g]
        simp only [stop]; split <;> rfl

/-- **C68**, part of `C68_timer_claim`: if `start` is never called while a back-off is pending,
the end of a back-off does not take away an Interest. -/
theorem C68_timer_partial (c : Cfg) (es : List Ev) (r : Req) (old : Option Req)
    (h : NoEarlyRestart c es) (alive : (run c es).1.dead = false)
    (hm : Out.express r old ∈ during c es .timer) : old = none := by
  rw [during_eq, step_alive alive] at hm
  simp only [act] at hm
  by_cases ht : (run c es).1.timer = true
  · rw [if_pos ht, sendInitial_eq] at hm
    have hp := one_thing c es h alive ht
    by_cases g : Going { (run c es).1 with timer := false }
    · rw [if_pos g] at hm
      simp only [List.mem_singleton] at hm
      injection hm with _ h2
      rw [h2]; exact hp
    · rw [if_neg g] at hm
      unfold stop at hm
      split at hm
      · split at hm <;> simp at hm
      · cases hm
  · rw [if_neg ht] at hm; cases hm

/-- **C68**: the back-off rule fails for number 2^64 - 1: the first Nack already counts as the
second. -/
theorem C68_backoff_counterexample : ¬ C68_backoff_claim := by
  intro h
  have := h exCfg [.call (.subscribe true), .call .start, .data (exData (2 ^ 64 - 2)) (some 0) []]
    (.nack 0 []) 400 (by decide +kernel) (by decide +kernel)
  revert this
  have e : streak (nackNums exCfg (run exCfg ([.call (.subscribe true), .call .start,
    .data (exData (2 ^ 64 - 2)) (some 0) []] ++ [.nack 0 []])).2) = 1 := by decide +kernel
  rw [e]
  intro h
  exact absurd h.2 (by decide)

/-- A Nack of the initial Interest and a Nack of the Interest for notification 0 count as Nacks of
the same number, so the second back-off is doubled. -/
theorem C68_backoff_mixed :
    during exCfg [.call (.subscribe true), .call .start] (.nack 0 []) = [.backoff 200] ∧
    during exCfg [.call (.subscribe true), .call .start, .nack 0 [], .timer,
      .data (exData (2 ^ 64 - 1)) (some 0) []] (.nack 0 []) = [.backoff 400] ∧
    outstanding (run exCfg [.call (.subscribe true), .call .start, .nack 0 [], .timer,
      .data (exData (2 ^ 64 - 1)) (some 0) []]).2 = some (numberedReq exCfg 0) := by
  decide +kernel

/-- What one would expect: no history of a stream with a proper name does anything undefined. -/
def C68_delay_claim : Prop :=
  ∀ (c : Cfg) (es : List Ev), c.pfx ≠ [] → (∀ name note react, Ev.data name note react ∈ es → name ≠ []) →
    (run c es).1.dead = false

theorem fold_track {os : List Out} {p : Option Req} {r : Req} (h : os.foldl track p = some r) :
    p = some r ∨ ∃ old, Out.express r old ∈ os := by
  induction os generalizing p with
  | nil => exact Or.inl h
  | cons o os ih =>
    rw [List.foldl_cons] at h
    rcases ih h with h | ⟨old, h⟩
    · cases o with
      | express q old => injection h with h; subst h; exact Or.inr ⟨old, List.mem_cons_self ..⟩
      | cancel q => cases h
      | _ => exact Or.inl h
    · exact Or.inr ⟨old, List.mem_cons_of_mem _ h⟩

/-- The number of Nacks in a history. -/
def Spec.nacks (es : List Ev) : Nat :=
  es.countP fun e => match e with | .nack .. => true | _ => false

theorem alive_of_few (c : Cfg) (es : List Ev) (hc : c.pfx ≠ [])
    (hn : ∀ name note react, Ev.data name note react ∈ es → name ≠ []) (hk : nacks es ≤ 35) :
    (run c es).1.dead = false ∧ (run c es).1.attempts ≤ nacks es + 1 ∧
      ∀ r, (run c es).1.pending = some r → r.name ≠ [] := by
  induction es using Ndn.Replay.snocInd with
  | nil => exact ⟨rfl, Nat.le_refl 1, fun r h => by cases h⟩
  | snoc es e ih =>
    have hk0 : nacks es ≤ nacks (es ++ [e]) := by simp [nacks]
    obtain ⟨hd, ha, hp⟩ := ih (fun name note react hm => hn name note react (List.mem_append_left _ hm))
      (by omega)
    have i := inv_run c es hd
    have hst : (run c (es ++ [e])).1 = (act c (run c es).1 e).1 := by rw [run_snoc, step_alive hd]
    have h0 : Own { (run c es).1 with pending := none } := fun h => by cases h
    have alive : (act c (run c es).1 e).1.dead = false := by
      cases e with
      | call x => exact (call_good c _ i.own x).1.dead.trans hd
      | data name note react =>
        have hne : name ≠ [] := hn name note react (by simp)
        cases hq : (run c es).1.pending with
        | none => simp only [act, hq]; exact hd
        | some r =>
          simp only [act, hq]
          by_cases g : Going { (run c es).1 with pending := none }
          · have em : ∀ (t : Out) k (s' : St), Own s' → s'.dead = false → (∀ s, Own s → Calm s (k s)) →
                (emit c [t] react k s').1.dead = false := by
              intro t k s' hs' hd' hk
              obtain ⟨a1, a2, -, -⟩ := calls_good c s' hs' react
              exact ((hk _ a2).dead.trans a1.dead).trans hd'
            rw [afterData_going c _ _ _ _ g]
            cases hl : name.getLast? with
            | none => exact absurd (List.getLast?_eq_none_iff.1 hl) hne
            | some x =>
              dsimp only
              cases hx : Conv.sequence.to c.conv x with
              | none => exact em _ _ _ h0 hd (sendInitial_calm c)
              | some n =>
                have h1 : Own { (run c es).1 with pending := none, last := n } := fun h => by cases h
                cases note with
                | none => exact em _ _ _ h1 hd (sendInitial_calm c)
                | some v =>
                  dsimp only
                  by_cases hs : (run c es).1.hasSub = true
                  · rw [if_pos hs]; exact em _ _ _ h1 hd (sendNext_calm c)
                  · rw [if_neg hs]; exact (sendNext_calm c _ h1).dead.trans hd
          · rw [afterData_stop c _ _ _ _ g]; exact (stop_calm _ h0).dead.trans hd
      | nack rnd react =>
        have hk1 : nacks (es ++ [.nack rnd react]) = nacks es + 1 := by simp [nacks]
        cases hq : (run c es).1.pending with
        | none => simp only [act, hq]; exact hd
        | some r =>
          simp only [act, hq]
          by_cases g : Going { (run c es).1 with pending := none }
          · rw [afterNack_going c _ _ _ _ g]
            obtain ⟨a1, -, -, -⟩ := calls_good c _ h0 react
            by_cases hs : (run c es).1.hasNack = true
            · rw [if_pos hs]
              exact backoff_dead c r rnd _ (a1.dead.trans hd) (hp r hq)
                (by rw [a1.att]; show (run c es).1.attempts ≤ 35; omega)
            · rw [if_neg hs]
              exact backoff_dead c r rnd _ hd (hp r hq) (by show (run c es).1.attempts ≤ 35; omega)
          · rw [afterNack_stop c _ _ _ _ g]; exact (stop_calm _ h0).dead.trans hd
      | timeout react =>
        cases hq : (run c es).1.pending with
        | none => simp only [act, hq]; exact hd
        | some r => simp only [act, hq]; exact (afterTimeout_good c react _ h0).1.dead.trans hd
      | timer =>
        simp only [act]
        by_cases ht : (run c es).1.timer = true
        · rw [if_pos ht]; exact (sendInitial_calm c _ (show Own { (run c es).1 with timer := false } from i.own)).dead.trans hd
        · rw [if_neg ht]; exact hd
    refine ⟨by rw [hst]; exact alive, ?_, ?_⟩
    · rw [hst]
      rcases (act_eff c _ e i.own hd alive).2 with hr | ⟨rnd, react, r, rfl, hq, hr⟩
      · rw [hr.att]; omega
      · obtain ⟨k, pre, rn, hk', -, -, ha'⟩ := hr.out
        have hk1 : nacks (es ++ [.nack rnd react]) = nacks es + 1 := by simp [nacks]
        rw [ha', hk', hk1]
        split
        · show (run c es).1.attempts + 1 ≤ _; omega
        · omega
    · intro r hr
      rw [hst, (act_eff c _ e i.own hd alive).1] at hr
      rcases fold_track hr with h | ⟨old, h⟩
      · split at h
        · cases h
        · exact hp r h
      · have hm : Out.express r old ∈ during c es e := by rw [during_eq, step_alive hd]; exact h
        rcases C68_requests c es e r old hm with rfl | ⟨name, v, react, n, -, -, rfl⟩
        · exact hc
        · simp [numberedReq]

/-- **C68**, part of `C68_delay_claim`: nothing undefined happens in a history with at most 35
Nacks. -/
theorem C68_delay_partial (c : Cfg) (es : List Ev) (hc : c.pfx ≠ [])
    (hn : ∀ name note react, Ev.data name note react ∈ es → name ≠ []) (hk : nacks es ≤ 35) :
    (run c es).1.dead = false := (alive_of_few c es hc hn hk).1

/-- An application that restarts the subscriber on every Nack. -/
def exRestart : Nat → List Ev
  | 0 => [.call (.subscribe true), .call .start]
  | n + 1 => exRestart n ++ [.nack 0 [], .call .stop, .call .start]

theorem exRestart_data (n : Nat) (name note react) : Ev.data name note react ∉ exRestart n := by
  induction n with
  | zero => simp [exRestart]
  | succ n ih => simp [exRestart, ih]

/-- **C68 is false of the code**: the back-off grows without bound, and restarting does not reset
it; on the 37th Nack the delay no longer fits the scheduler's clock. -/
theorem C68_delay_counterexample : ¬ C68_delay_claim := by
  intro h
  have := h exCfg (exRestart 37) (by decide) (fun name note react hm => absurd hm (exRestart_data 37 name note react))
  revert this
  decide +kernel

end Ndn.Notify
