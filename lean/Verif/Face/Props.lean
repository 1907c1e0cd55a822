import Verif.Face.Reg
/-
C47: at most one outcome per expressed Interest.  C48: Data satisfies exactly the matching pending
Interests.  C49: Nack aggregation.  C50: Interest dispatch to filters.  C80: prefix registration.

A history is a list of operations from the initial state `{}`; `s.log` is the chronological log of
what is observed.  `Calm` histories are those where no callback throws.
-/
namespace Ndn.Face
open Spec
open Ndn.Name (Comp)
variable {I D : Type} {E : Env I D}

theorem calm_run {ops : List (Op I D)} (hc : ∀ op ∈ ops, Calm op) :
    InvA E (run E {} ops) ∧ InvB (run E {} ops) := inv_calm inv_init invB_init hc

/-! A concrete world for the witnesses: Interests and Data are numbers, equal ones match. -/

/-- Interest and Data number n match exactly n; every name is /a. -/
def demo : Env Nat Nat :=
  ⟨fun i d => i == d, fun i j => i == j, fun _ => [⟨8, [97]⟩], fun _ => 4000, fun i => i, fun d => d, fun i _ => i⟩

def calmly : Nat → Bool := fun _ => false
def throwing : Nat → Bool := fun _ => true
def slashA : Filter := ⟨[⟨8, [97]⟩], none, true⟩
def noLoop : Filter := ⟨[⟨8, [97]⟩], none, false⟩

/-! ### C47 -/

/-- Each expressed Interest gets at most one callback in total. -/
theorem C47_once (ops : List (Op I D)) (hc : ∀ op ∈ ops, Calm op) (id : Nat) :
    outcomes id (run E {} ops).log ≤ 1 := (calm_run hc).2.one id

/-- None after the handler of its cancellation has run. -/
theorem C47_after_cancel_partial (ops : List (Op I D)) (hc : ∀ op ∈ ops, Calm op) (id : Nat) (pre post : List (Obs I D))
    (h : (run E {} ops).log = pre ++ .cancelled id :: post) : outcomes id post = 0 :=
  (calm_run hc).2.after pre post id h

/-- None after `removeAllPendingInterests` or `shutdown` has cleared the table. -/
theorem C47_after_clear (ops : List (Op I D)) (hc : ∀ op ∈ ops, Calm op) (id : Nat) (i : I) (t : Nat) (pre post : List (Obs I D))
    (h : (run E {} ops).log = pre ++ .cleared :: post) (hi : Obs.expressed id i t ∈ pre) : outcomes id post = 0 :=
  (calm_run hc).2.afterClear pre post h id ((mem_creIds_iff id pre).2 ⟨_, hi, by simp [creates]⟩)

/-- An Interest that was expressed, got no callback, was neither cancelled nor cleared and whose lifetime is over has a
timeout event, and the event invokes the timeout callback. -/
theorem C47_timeout (ops : List (Op I D)) (hc : ∀ op ∈ ops, Calm op) (id : Nat) (i : I) (t : Nat)
    (hi : Obs.expressed id i t ∈ (run E {} ops).log) (ho : outcomes id (run E {} ops).log = 0)
    (hcan : Obs.cancelled id ∉ (run E {} ops).log) (hcl : Obs.cleared ∉ since id (run E {} ops).log)
    (ht : t + E.lifetime i ≤ (run E {} ops).now) :
    (step E (run E {} ops) (.fire id (fun _ => false))).log = (run E {} ops).log ++ [.timeout id i (run E {} ops).now] := by
  obtain ⟨hA, hB⟩ := calm_run (E := E) hc
  generalize run E {} ops = s at *
  rcases hB.res id i t hi with ⟨e, he, hid⟩ | h | h | h
  · have hz := hB.zero e he
    have heq := expressed_entry hA he hid hi
    have hf : s.pit.find? (fun x => x.id == id && x.armed && decide (x.expiry ≤ s.now)) = some e := by
      have hp : ((e.id == id) && e.armed && decide (e.expiry ≤ s.now)) = true := by
        simp only [Bool.and_eq_true, beq_iff_eq, decide_eq_true_eq]
        refine ⟨⟨hid, hz.1⟩, ?_⟩
        rw [heq.2.2]; exact ht
      cases hfi : s.pit.find? (fun x => x.id == id && x.armed && decide (x.expiry ≤ s.now)) with
      | none =>
        have := List.find?_eq_none.1 hfi e he
        exact absurd hp this
      | some e' =>
        have hm := List.mem_of_find?_eq_some hfi
        have hp' := List.find?_some hfi
        simp only [Bool.and_eq_true, beq_iff_eq, decide_eq_true_eq] at hp'
        rw [eq_of_sorted hA.sorted hm he (by rw [hp'.1.1, hid])]
    simp only [step, doFire, hf, heq.2.1, if_true]
    rw [if_neg (by simp), heq.1]
  · omega
  · obtain ⟨o, hom, hh⟩ := List.any_eq_true.1 h
    cases o <;> simp [isCancelled] at hh
    subst hh
    exact absurd hom hcan
  · obtain ⟨o, hom, hh⟩ := List.any_eq_true.1 h
    cases o <;> simp [isCleared] at hh
    exact absurd hom hcl

/-- Once no timeout event is due, every expressed Interest whose lifetime is over got exactly one callback, or was
cancelled, or the table was cleared since. -/
theorem C47_resolved (ops : List (Op I D)) (hc : ∀ op ∈ ops, Calm op)
    (hq : ∀ id, (step E (run E {} ops) (.fire id (fun _ => false))).log = (run E {} ops).log)
    (id : Nat) (i : I) (t : Nat) (hi : Obs.expressed id i t ∈ (run E {} ops).log) (ht : t + E.lifetime i ≤ (run E {} ops).now) :
    outcomes id (run E {} ops).log = 1 ∨ Obs.cancelled id ∈ (run E {} ops).log ∨
    Obs.cleared ∈ since id (run E {} ops).log := by
  by_cases h1 : outcomes id (run E {} ops).log = 1
  · exact Or.inl h1
  · by_cases h2 : Obs.cancelled id ∈ (run E {} ops).log
    · exact Or.inr (Or.inl h2)
    · by_cases h3 : Obs.cleared ∈ since id (run E {} ops).log
      · exact Or.inr (Or.inr h3)
      · have h4 := C47_once (E := E) ops hc id
        have := C47_timeout ops hc id i t hi (by omega) h2 h3 ht
        rw [hq id] at this
        have := congrArg List.length this
        simp at this

/-- An expressed Interest is sent to the forwarder when its record is made, unless it does not fit in a packet, when
`OversizedPacketError` is thrown. -/
theorem C47_sends (ops : List (Op I D)) (id : Nat) (i : I) (ps : List (Post I D)) (boom : Nat → Bool)
    (hq : (run E {} ops).queue = .express id i :: ps) :
    ∃ δ, (step E (run E {} ops) (.run boom)).log = (run E {} ops).log ++ .expressed id i (run E {} ops).now ::
      (if E.sizeI i ≤ 8800 then .sentInterest i else .oversized) :: δ := by
  have hA := invA_run (E := E) inv_init ops
  have hF := invF_run (E := E) invF_init ops
  have hD := invD_step hF (inv_all (ops := ops) inv_init invF_init invD_init) (kind_step hA hF (.run boom))
  generalize run E {} ops = s at *
  obtain ⟨e, δ, hs, hc, _, _, hd⟩ := doExpress_shape (E := E) boom { s with queue := ps } id i
  have hlog : (step E s (.run boom)).log = s.log ++ .expressed id i s.now :: δ := by
    simp only [step, hq, handle]; rw [hs]
  have hno := hD.nodup
  rw [hlog] at hno ⊢
  have hdup : (putEntry e s.pit).2 = false := by
    cases hb : (putEntry e s.pit).2 with
    | false => rfl
    | true =>
      exfalso; apply hno
      rcases hd with ⟨_, _, rfl⟩ | ⟨_, _, rfl⟩ <;> simp [hb, dupObs]
  rcases hd with ⟨hz, _, rfl⟩ | ⟨hz, _, rfl⟩
  · refine ⟨[], ?_⟩
    rw [if_neg (by unfold maxPacket at hz; omega)]
    simp [hdup, dupObs]
  · refine ⟨(dispatch (D := D) E boom { newEntry E id i true s.now with nNotNacked := 1 } s.filters).2, ?_⟩
    rw [if_pos (by unfold maxPacket at hz; omega)]
    simp [hdup, dupObs]

/-- What the callbacks tell is true, in every history: the Data callback gets the expressed Interest and a Data that
matches it and was received or put; the timeout callback is not early; the Nack callback gets the expressed Interest. -/
theorem C47_sound (ops : List (Op I D)) (pre post : List (Obs I D)) :
    (∀ id i d, (run E {} ops).log = pre ++ .data id i d :: post →
      (∃ t, Obs.expressed id i t ∈ pre) ∧ E.matchesData i d = true ∧ (Obs.gotData d ∈ pre ∨ Obs.putData d ∈ pre)) ∧
    (∀ id i n, (run E {} ops).log = pre ++ .nack id i n :: post → ∃ t, Obs.expressed id i t ∈ pre) ∧
    (∀ id i t, (run E {} ops).log = pre ++ .timeout id i t :: post →
      ∃ t0, Obs.expressed id i t0 ∈ pre ∧ t0 + E.lifetime i ≤ t) := by
  have h := sound_run (E := E) inv_init sound_init ops
  exact ⟨fun id i d e => h pre _ post e, fun id i n e => h pre _ post e, fun id i t e => h pre _ post e⟩

/-- In every history no two records get the same identifier. -/
theorem C47_ids (ops : List (Op I D)) :
    Obs.dupRecord ∉ (run E {} ops).log ∧
    ((run E {} ops).log.filterMap (fun | .expressed id _ _ => some id | .arrived id _ _ => some id | _ => none)).Nodup :=
  ⟨(inv_all inv_init invF_init invD_init).nodup, (List.nodup_append.1 (invA_run inv_init ops).nodup).1⟩

/-- The full claim: at most one callback, and none once `cancel` has been called, in every history. -/
def C47_claim : Prop :=
  ∀ (I D : Type) (E : Env I D) (ops : List (Op I D)) (id : Nat),
    outcomes id (run E {} ops).log ≤ 1 ∧
    ∀ pre post : List (Obs I D), (run E {} ops).log = pre ++ .callCancel id :: post → outcomes id post = 0

/-- `cancel` only posts a handler: a Data that arrives before the handler runs still reaches the callback. -/
theorem C47_cancel_counterexample : ¬ C47_claim := by
  intro h
  have := (h Nat Nat demo [.express 1, .run calmly, .cancel 1, .recvData 1 calmly] 1).2
    [.callExpress 1 1, .expressed 1 1 0, .sentInterest 1] [.gotData 1, .data 1 1 1] rfl
  exact absurd this (by decide)

/-- A Data callback that throws leaves the Interest pending: it is invoked again for the next matching Data. -/
theorem C47_throw_counterexample : ¬ C47_claim := by
  intro h
  exact absurd (h Nat Nat demo [.express 1, .run calmly, .recvData 1 throwing, .recvData 1 calmly] 1).1 (by decide)

/-- A timeout callback that throws leaves the Interest pending without a timeout event. -/
theorem C47_timeout_throw_counterexample :
    ∃ ops : List (Op Nat Nat), (run demo {} ops).pit.length = 1 ∧ (run demo {} ops).pit.all (fun e => !e.armed) = true ∧
      outcomes 1 (run demo {} (ops ++ [.advance 100000, .fire 1 calmly, .recvData 1 calmly])).log = 2 :=
  ⟨[.express 1, .run calmly, .advance 4000, .fire 1 throwing], by decide, by decide, by decide⟩

/-- The cases exist: a Data outcome, a cancelled Interest, a timeout. -/
example : (run demo {} [.express 1, .run calmly, .express 2, .run calmly, .cancel 2, .run calmly, .recvData 1 calmly,
    .express 3, .run calmly, .advance 4000, .fire 3 calmly, .recvData 3 calmly]).log.countP
      (fun o => outcome 1 o || outcome 2 o || outcome 3 o) = 2 := by decide
example : ∀ op ∈ ([.express 1, .run calmly, .advance 4000, .fire 1 calmly] : List (Op Nat Nat)), Calm op := by
  intro op h; simp at h; rcases h with rfl | rfl | rfl | rfl <;> simp [Calm, calmly]
example : (step demo (run demo {} [.express 1, .run calmly, .advance 4000]) (.fire 1 calmly)).log =
    [.callExpress 1 1, .expressed 1 1 0, .sentInterest 1, .timeout 1 1 4000] := rfl

/-! ### C48 -/

/-- A Data that arrives removes exactly the pending Interests it matches, keeps the others as they are and in order, and
invokes the Data callback of each application-originated one it matches, once, in the order they were expressed; nothing
else is observed. -/
theorem C48_receive (s : St I D) (d : D) :
    (step E s (.recvData d (fun _ => false))).pit = s.pit.filter (fun e => !E.matchesData e.interest d) ∧
    (step E s (.recvData d (fun _ => false))).log = s.log ++ .gotData d ::
      (s.pit.filter (fun e => E.matchesData e.interest d && e.app)).map (fun e => .data e.id e.interest d) := by
  have hk : ∀ es : List (Entry I), es.filterMap (keepD E d) = es.filter (fun e => !E.matchesData e.interest d) := by
    intro es
    induction es with
    | nil => rfl
    | cons e es ih => by_cases h : E.matchesData e.interest d = true <;> simp [keepD, h] <;> simpa [keepD] using ih
  have ho : ∀ es : List (Entry I), es.flatMap (obsD E d) =
      (es.filter (fun e => E.matchesData e.interest d && e.app)).map (fun e => .data e.id e.interest d) := by
    intro es
    induction es with
    | nil => rfl
    | cons e es ih =>
      rw [List.flatMap_cons, List.filter_cons]
      by_cases h : (E.matchesData e.interest d && e.app) = true
      · rw [if_pos h, ih]; simp only [obsD, if_pos h]; rfl
      · rw [if_neg h, ih]; simp only [obsD, if_neg h]; rfl
  simp only [step]
  rw [satisfy_calm d (boom := fun _ => false) (fun _ => rfl)]
  exact ⟨hk _, by rw [ho]⟩

/-- The same for a Data the application puts, when it is put on the wire exactly if a forwarder-originated pending
Interest matches it or no application-originated one does (and it fits in a packet; otherwise `OversizedPacketError`). -/
theorem C48_put (s : St I D) (d : D) :
    (handle E (fun _ => false) s (.putData d)).pit = s.pit.filter (fun e => !E.matchesData e.interest d) ∧
    ∃ out, (handle E (fun _ => false) s (.putData d)).log = s.log ++ .putData d ::
      (s.pit.filter (fun e => E.matchesData e.interest d && e.app)).map (fun e => .data e.id e.interest d) ++ out ∧
      (((∃ e ∈ s.pit, e.app = false ∧ E.matchesData e.interest d = true) ∨
        ¬ ∃ e ∈ s.pit, e.app = true ∧ E.matchesData e.interest d = true) →
        out = if E.sizeD d ≤ 8800 then [.sentData d] else [.oversized]) ∧
      (¬ ((∃ e ∈ s.pit, e.app = false ∧ E.matchesData e.interest d = true) ∨
        ¬ ∃ e ∈ s.pit, e.app = true ∧ E.matchesData e.interest d = true) → out = []) := by
  have hr := C48_receive (E := E) s d
  simp only [step] at hr
  have hsat := satisfy_calm (E := E) d (boom := fun _ => false) (fun _ => rfl) s.pit
  have hfw : (satisfy E d (fun _ => false) s.pit).fwdMatch = true ↔ ∃ e ∈ s.pit, e.app = false ∧ E.matchesData e.interest d = true := by
    rw [hsat]; simp [List.any_eq_true, and_comm]
  have hap : (satisfy E d (fun _ => false) s.pit).appMatch = true ↔ ∃ e ∈ s.pit, e.app = true ∧ E.matchesData e.interest d = true := by
    rw [hsat]; simp [List.any_eq_true, and_comm]
  have hth : (satisfy E d (fun _ => false) s.pit).threw = false := by rw [hsat]
  have hlog : (satisfy E d (fun _ => false) s.pit).log =
      (s.pit.filter (fun e => E.matchesData e.interest d && e.app)).map (fun e => .data e.id e.interest d) := by
    have := List.append_cancel_left hr.2
    simpa using this
  simp only [handle, doPutData]
  rw [← hfw, ← hap, if_neg (by simp [hth]), ← hlog, ← hr.1]
  by_cases hg : (satisfy E d (fun _ => false) s.pit).fwdMatch = true ∨ ¬ (satisfy E d (fun _ => false) s.pit).appMatch = true
  · rw [if_neg (by rcases hg with h | h <;> simp [h])]
    by_cases hz : E.sizeD d > maxPacket
    · rw [if_pos hz]
      have hz' : ¬ E.sizeD d ≤ 8800 := by unfold maxPacket at hz; omega
      exact ⟨rfl, [.oversized], rfl, fun _ => by rw [if_neg hz'], fun h => absurd hg h⟩
    · rw [if_neg hz]
      have hz' : E.sizeD d ≤ 8800 := by unfold maxPacket at hz; omega
      exact ⟨rfl, [.sentData d], rfl, fun _ => by rw [if_pos hz'], fun h => absurd hg h⟩
  · have hg' := not_or.1 hg
    rw [if_pos (by
      have h1 : (satisfy E d (fun _ => false) s.pit).fwdMatch = false := by simpa using hg'.1
      have h2 : (satisfy E d (fun _ => false) s.pit).appMatch = true := by simpa using hg'.2
      simp [h1, h2])]
    exact ⟨rfl, [], by simp, fun h => absurd h hg, fun _ => rfl⟩

/-- In terms of what was observed: in a history without throwing callbacks, an expressed Interest that got no callback and
was neither cancelled nor cleared gets the Data callback exactly when a Data that matches it arrives. -/
theorem C48_delivery (ops : List (Op I D)) (hc : ∀ op ∈ ops, Calm op) (id : Nat) (i : I) (t : Nat) (d : D)
    (hi : Obs.expressed id i t ∈ (run E {} ops).log) (ho : outcomes id (run E {} ops).log = 0)
    (hcan : Obs.cancelled id ∉ (run E {} ops).log) (hcl : Obs.cleared ∉ since id (run E {} ops).log) :
    outcomes id (step E (run E {} ops) (.recvData d (fun _ => false))).log = (if E.matchesData i d then 1 else 0) ∧
    (E.matchesData i d = true → Obs.data id i d ∈ (step E (run E {} ops) (.recvData d (fun _ => false))).log) := by
  obtain ⟨hA, hB⟩ := calm_run (E := E) hc
  have hone : outcomes id (step E (run E {} ops) (.recvData d (fun _ => false))).log ≤ 1 := by
    have := C47_once (E := E) (ops ++ [.recvData d (fun _ => false)])
      (by intro op h; rcases List.mem_append.1 h with h | h
          · exact hc op h
          · simp at h; subst h; simp [Calm]) id
    simpa [run, List.foldl_append] using this
  rw [(C48_receive _ d).2] at hone ⊢
  generalize run E {} ops = s at *
  have hpend : ∃ e ∈ s.pit, e.id = id := by
    rcases hB.res id i t hi with h | h | h | h
    · exact h
    · omega
    · obtain ⟨o, hom, hh⟩ := List.any_eq_true.1 h
      cases o <;> simp [isCancelled] at hh
      subst hh; exact absurd hom hcan
    · obtain ⟨o, hom, hh⟩ := List.any_eq_true.1 h
      cases o <;> simp [isCleared] at hh
      exact absurd hom hcl
  obtain ⟨e, he, hid⟩ := hpend
  have heq := expressed_entry hA he hid hi
  have hmem : E.matchesData i d = true → (Obs.data id i d : Obs I D) ∈ s.log ++ .gotData d ::
      (s.pit.filter (fun e => E.matchesData e.interest d && e.app)).map (fun e => .data e.id e.interest d) := by
    intro hm
    refine List.mem_append_right _ (List.mem_cons_of_mem _ (List.mem_map.2 ⟨e, ?_, by rw [hid, heq.1]⟩))
    rw [List.mem_filter]
    exact ⟨he, by simp [heq.1, heq.2.1, hm]⟩
  refine ⟨?_, hmem⟩
  by_cases hm : E.matchesData i d = true
  · rw [if_pos hm]
    have : 0 < outcomes id (s.log ++ .gotData d ::
      (s.pit.filter (fun e => E.matchesData e.interest d && e.app)).map (fun e => .data e.id e.interest d)) := by
      unfold outcomes
      rw [List.countP_pos_iff]
      exact ⟨_, hmem hm, by simp [outcome]⟩
    omega
  · rw [if_neg hm, outcomes_append, ho]
    unfold outcomes
    rw [Nat.zero_add, List.countP_eq_zero]
    intro o ho'
    rcases List.mem_cons.1 ho' with rfl | ho'
    · simp [outcome]
    · obtain ⟨x, hx, rfl⟩ := List.mem_map.1 ho'
      rw [List.mem_filter] at hx
      intro hh
      simp only [outcome, beq_iff_eq] at hh
      have := eq_of_sorted hA.sorted hx.1 he (by rw [hh, hid])
      subst this
      rw [heq.1] at hx
      simp [hm] at hx

/-- The claim for all callbacks, throwing ones included: the Data removes every Interest it matches. -/
def C48_claim : Prop :=
  ∀ (I D : Type) (E : Env I D) (ops : List (Op I D)) (d : D) (boom : Nat → Bool),
    (step E (run E {} ops) (.recvData d boom)).pit = (run E {} ops).pit.filter (fun e => !E.matchesData e.interest d)

/-- A Data callback that throws ends the processing of the packet: its Interest and the later ones stay. -/
theorem C48_throw_counterexample : ¬ C48_claim := by
  intro h
  have := congrArg List.length (h Nat Nat demo [.express 1, .run calmly, .express 1, .run calmly] 1 (fun _ => true))
  exact absurd this (by decide)

example : (step demo (run demo {} [.express 1, .run calmly, .express 2, .run calmly, .recvInterest 1 calmly, .express 1,
    .run calmly, .putData 1]) (.run calmly)).log.drop 10 = [.putData 1, .data 1 1 1, .data 4 1 1, .sentData 1] := rfl
example : ((run demo {} [.express 1, .run calmly, .express 2, .run calmly]).pit.filter (fun e => demo.matchesData e.interest 1)).length = 1 := by
  decide

/-! ### C49 -/

/-- An Interest is reported as Nacked only after as many Nacks for it as it has destinations, and with a least severe one
of them.  Missing from the English claim: that the Nacks come from different destinations (they do not say where from),
and what holds when a callback throws. -/
theorem C49_reported_partial (ops : List (Op I D)) (hc : ∀ op ∈ ops, Calm op) (pre post : List (Obs I D)) (id : Nat) (i : I)
    (m : Nack I) (h : (run E {} ops).log = pre ++ .nack id i m :: post) :
    destinations id pre ≤ (nacksFor E id i pre).length ∧ m ∈ nacksFor E id i pre ∧
    ∀ n ∈ nacksFor E id i pre, ¬ LessSevere n.reason m.reason := by
  obtain ⟨h1, h2, h3⟩ := (invC_run inv_init invC_init hc).rep pre post id i m h
  exact ⟨h1, h2, h3⟩

/-- A Nack put by the application is sent to the forwarder only for an Interest received from it, after as many Nacks as
filters it was delivered to, and with a least severe one of them. -/
theorem C49_sent_partial (ops : List (Op I D)) (hc : ∀ op ∈ ops, Calm op) (pre post : List (Obs I D)) (m : Nack I)
    (h : (run E {} ops).log = pre ++ .sentNack m :: post) :
    ∃ id i t, Obs.arrived id i t ∈ pre ∧ destinations id pre ≤ (nacksFor E id i pre).length ∧
      m ∈ nacksFor E id i pre ∧ ∀ n ∈ nacksFor E id i pre, ¬ LessSevere n.reason m.reason := by
  obtain ⟨id, i, t, h0, h1, h2, h3⟩ := (invC_run inv_init invC_init hc).sent pre post m h
  exact ⟨id, i, t, h0, h1, h2, h3⟩

/-- Conversely a Nack does not get lost: an expressed Interest without callback, neither cancelled nor cleared, has no Nack
yet or fewer Nacks than destinations. -/
theorem C49_pending (ops : List (Op I D)) (hc : ∀ op ∈ ops, Calm op) (id : Nat) (i : I) (t : Nat)
    (hi : Obs.expressed id i t ∈ (run E {} ops).log) (ho : outcomes id (run E {} ops).log = 0)
    (hcan : Obs.cancelled id ∉ (run E {} ops).log) (hcl : Obs.cleared ∉ since id (run E {} ops).log) :
    (nacksFor E id i (run E {} ops).log).length < destinations id (run E {} ops).log ∨
    nacksFor E id i (run E {} ops).log = [] := by
  obtain ⟨hA, hB⟩ := calm_run (E := E) hc
  have hC := invC_run (E := E) inv_init invC_init hc
  generalize run E {} ops = s at *
  rcases hB.res id i t hi with ⟨e, he, hid⟩ | h | h | h
  · have heq := expressed_entry hA he hid hi
    obtain ⟨h1, h2⟩ := hC.cnt e he
    rw [hid, heq.1] at h1 h2
    rcases h2 with ⟨h2, _⟩ | ⟨h2, _⟩
    · exact Or.inr h2
    · left; omega
  · omega
  · obtain ⟨o, hom, hh⟩ := List.any_eq_true.1 h
    cases o <;> simp [isCancelled] at hh
    subst hh; exact absurd hom hcan
  · obtain ⟨o, hom, hh⟩ := List.any_eq_true.1 h
    cases o <;> simp [isCleared] at hh
    exact absurd hom hcl

/-- A Nack that the application puts is passed on exactly when it completes the Nacks for some pending Interest of the
forwarder: when one it is for has then as many Nacks as it was delivered to filters. -/
theorem C49_put (ops : List (Op I D)) (hc : ∀ op ∈ ops, Calm op) (n : Nack I)
    (hz : ∀ m : Nack I, E.sizeN m.interest m.reason ≤ 8800) :
    (∃ m δ, (handle E (fun _ => false) (run E {} ops) (.putNack n)).log =
      (run E {} ops).log ++ .putNack n :: δ ++ [.sentNack m]) ↔
    ∃ e ∈ (run E {} ops).pit, e.app = false ∧ E.matchesInterest n.interest e.interest = true ∧
      destinations e.id (run E {} ops).log ≤ (nacksFor E e.id e.interest (run E {} ops).log).length + 1 := by
  have hC := invC_run (E := E) inv_init invC_init hc
  generalize run E {} ops = s at *
  have hiff := nackLoop_out_iff (D := D) (E := E) n (boom := fun _ => false) (fun _ => rfl) s.pit
  obtain ⟨_, hl, hth⟩ := nackLoop_calm (D := D) (E := E) n (boom := fun _ => false) (fun _ => rfl) s.pit
  have hright : (∃ e ∈ s.pit, e.app = false ∧ E.matchesInterest n.interest e.interest = true ∧
      destinations e.id s.log ≤ (nacksFor E e.id e.interest s.log).length + 1) ↔
      (nackLoop (D := D) E n (fun _ => false) s.pit).outNack.isSome = true := by
    rw [hiff]
    constructor
    · rintro ⟨e, he, ha, hm, hd⟩
      exact ⟨e, he, hm, ha, by have := (hC.cnt e he).1; omega⟩
    · rintro ⟨e, he, hm, ha, hd⟩
      exact ⟨e, he, ha, hm, by have := (hC.cnt e he).1; omega⟩
  rw [hright]
  have hns : ∀ m, (Obs.sentNack m : Obs I D) ∉ (nackLoop (D := D) E n (fun _ => false) s.pit).log := by
    intro m hm
    have := nackLoop_log n _ s.pit _ hm
    simp [nackish] at this
  simp only [handle, doPutNack]
  rw [if_neg (by simp [hth])]
  cases ho : (nackLoop (D := D) E n (fun _ => false) s.pit).outNack with
  | none =>
    simp only [Option.isSome_none, Bool.false_eq_true, iff_false]
    rintro ⟨m, δ, h⟩
    rw [List.append_assoc] at h
    have h := List.append_cancel_left h
    simp at h
    exact hns m (by rw [h]; simp)
  | some m =>
    simp only [Option.isSome_some, iff_true]
    rw [if_neg (by have := hz m; unfold maxPacket; omega)]
    exact ⟨m, _, rfl⟩

/-- The filters that have put a Nack are not told apart: one that puts two makes the Interest reported although the
forwarder never Nacked it.  (Destinations: the forwarder and the filter; Nacks received from the forwarder: none.) -/
theorem C49_repeat_counterexample :
    ∃ (ops : List (Op Nat Nat)) (m : Nack Nat), (∀ op ∈ ops, Calm op) ∧
      Obs.nack 1 1 m ∈ (run demo {} ops).log ∧ destinations 1 (run demo {} ops).log = 2 ∧
      ∀ n, Obs.gotNack n ∉ (run demo {} ops).log := by
  refine ⟨[.setFilter slashA, .run calmly, .express 1, .run calmly, .putNack ⟨1, 50⟩, .run calmly, .putNack ⟨1, 50⟩, .run calmly],
    ⟨1, 50⟩, ?_, ?_, by decide, ?_⟩
  · intro op h; simp at h; rcases h with rfl | rfl | rfl | rfl | rfl | rfl | rfl | rfl <;> simp [Calm, calmly]
  · have : (run demo {} [.setFilter slashA, .run calmly, .express 1, .run calmly, .putNack ⟨1, 50⟩, .run calmly, .putNack ⟨1, 50⟩, .run calmly]).log =
      [.filterSet 1 slashA, .callExpress 1 1, .expressed 1 1 0, .sentInterest 1, .interest 1 1 1, .putNack ⟨1, 50⟩, .putNack ⟨1, 50⟩, .nack 1 1 ⟨1, 50⟩] := rfl
    rw [this]; simp
  · have : (run demo {} [.setFilter slashA, .run calmly, .express 1, .run calmly, .putNack ⟨1, 50⟩, .run calmly, .putNack ⟨1, 50⟩, .run calmly]).log =
      [.filterSet 1 slashA, .callExpress 1 1, .expressed 1 1 0, .sentInterest 1, .interest 1 1 1, .putNack ⟨1, 50⟩, .putNack ⟨1, 50⟩, .nack 1 1 ⟨1, 50⟩] := rfl
    rw [this]; simp

/-- The assertion that the count is not negative fails when the application puts a Nack for an Interest of the forwarder
that matched no filter. -/
theorem C49_assert_counterexample :
    ∃ ops : List (Op Nat Nat), (run demo {} ops).log =
      [.arrived 1 1 0, .putNack ⟨1, 50⟩, .nackCount, .sentNack ⟨1, 50⟩] :=
  ⟨[.recvInterest 1 calmly, .putNack ⟨1, 50⟩, .run calmly], rfl⟩

/-- Two destinations, reasons 150 then 50: the less severe one is reported, after the second. -/
example : (run demo {} [.setFilter slashA, .run calmly, .express 1, .run calmly, .recvNack ⟨1, 150⟩ calmly, .putNack ⟨1, 50⟩,
    .run calmly]).log.drop 5 = [.gotNack ⟨1, 150⟩, .putNack ⟨1, 50⟩, .nack 1 1 ⟨1, 50⟩] := rfl

/-! ### C50 -/

/-- In every history, an Interest given to a filter is that of a record made before; the filter was set and not unset when
the record was made, accepts the name and, if the application expressed the Interest, allows loopback. -/
theorem C50_sound (ops : List (Op I D)) (pre post : List (Obs I D)) (fid id : Nat) (i : I)
    (h : (run E {} ops).log = pre ++ .interest fid id i :: post) :
    ∃ f, Live pre fid f ∧ Accepts f (E.name i) ∧
      ((∃ t, Obs.arrived id i t ∈ pre) ∨ ((∃ t, Obs.expressed id i t ∈ pre) ∧ f.loopback = true)) := by
  obtain ⟨f, app, t, hm, hl, ha, hb⟩ := (inv_all (E := E) inv_init invF_init invD_init).dl pre post fid id i h
  refine ⟨f, hl, ha, ?_⟩
  cases app with
  | false => exact Or.inl ⟨t, hm⟩
  | true => exact Or.inr ⟨⟨t, hm⟩, hb rfl⟩

/-- In histories without throwing callbacks: a received Interest, when it is processed, is given exactly to the filters
that are set and accept its name, once to each. -/
theorem C50_received (ops : List (Op I D)) (hc : ∀ op ∈ ops, Calm op) (pre post : List (Obs I D)) (id : Nat) (i : I) (t : Nat)
    (h : (run E {} ops).log = pre ++ .arrived id i t :: post) (fid : Nat) :
    (run E {} ops).log.countP (delivered fid id) ≤ 1 ∧
    (0 < (run E {} ops).log.countP (delivered fid id) ↔ ∃ f, Live pre fid f ∧ Accepts f (E.name i)) := by
  have := (invG_run (E := E) inv_init invF_init invG_init hc).ex pre post false id i t h (by simp) fid
  simpa [deliveries] using this

/-- The same for an expressed Interest that fits in a packet: exactly to the filters that also allow loopback. -/
theorem C50_expressed (ops : List (Op I D)) (hc : ∀ op ∈ ops, Calm op) (pre post : List (Obs I D)) (id : Nat) (i : I) (t : Nat)
    (h : (run E {} ops).log = pre ++ .expressed id i t :: post) (hz : E.sizeI i ≤ 8800) (fid : Nat) :
    (run E {} ops).log.countP (delivered fid id) ≤ 1 ∧
    (0 < (run E {} ops).log.countP (delivered fid id) ↔ ∃ f, Live pre fid f ∧ Accepts f (E.name i) ∧ f.loopback = true) := by
  have := (invG_run (E := E) inv_init invF_init invG_init hc).ex pre post true id i t h (fun _ => hz) fid
  simpa [deliveries] using this

/-- An expressed Interest that does not fit is given to no filter. -/
theorem C50_oversized (ops : List (Op I D)) (hc : ∀ op ∈ ops, Calm op) (id : Nat) (i : I) (t : Nat)
    (h : Obs.expressed id i t ∈ (run E {} ops).log) (hz : E.sizeI i > 8800) (fid : Nat) :
    (run E {} ops).log.countP (delivered fid id) = 0 :=
  (invG_run (E := E) inv_init invF_init invG_init hc).big id i t h hz fid

/-- The claim with "unset" meaning that the call has returned. -/
def C50_claim : Prop :=
  ∀ (I D : Type) (E : Env I D) (ops : List (Op I D)) (pre post : List (Obs I D)) (fid id : Nat) (i : I),
    (run E {} ops).log = pre ++ .callUnset fid :: post → Obs.interest fid id i ∉ post

/-- `InterestFilterHandle::cancel` only posts a handler: an Interest that arrives before the handler runs is still
delivered. -/
theorem C50_unset_counterexample : ¬ C50_claim := by
  intro h
  have := h Nat Nat demo [.setFilter slashA, .run calmly, .unsetFilter 1, .recvInterest 1 calmly]
    [.filterSet 1 slashA] [.arrived 1 1 0, .interest 1 1 1] 1 1 1 rfl
  simp at this

/-- Two filters, one without loopback: the expressed Interest goes to the first, the received one to both. -/
example : (run demo {} [.setFilter slashA, .run calmly, .setFilter noLoop, .run calmly, .express 1, .run calmly,
    .recvInterest 1 calmly]).log.drop 3 =
      [.expressed 1 1 0, .sentInterest 1, .interest 1 1 1, .arrived 2 1 0, .interest 1 2 1, .interest 2 2 1] := rfl
example : Accepts slashA (demo.name 1) := ⟨[], rfl, by simp [slashA]⟩

/-! ### C80 -/

/-- In every history each prefix registration gets at most one of its success and failure callbacks, and exactly one once
its command is answered: every handle given out either has its command outstanding or got exactly one callback. -/
theorem C80_register_once (ops : List (Op I D)) (id : Nat) :
    (run E {} ops).log.countP (regAnswer id) ≤ 1 ∧
    (0 < id → id ≤ (run E {} ops).lastReg → (∀ c ∈ (run E {} ops).cmds, isRegister id c = false) →
      (run E {} ops).log.countP (regAnswer id) = 1) := by
  have h := (invR_run (E := E) invR_init ops).reg id
  refine ⟨by split at h <;> omega, ?_⟩
  intro h1 h2 h3
  rw [if_pos ⟨h1, h2⟩] at h
  have : (run E {} ops).cmds.countP (isRegister id) = 0 := by
    rw [List.countP_eq_zero]; intro c hc; simp [h3 c hc]
  omega

/-- Each call of `unregister` gets at most one callback; when no handler and no command is outstanding, exactly one. -/
theorem C80_unregister_once (ops : List (Op I D)) (id : Nat) :
    (run E {} ops).log.countP (unregAnswer id) ≤ (run E {} ops).log.countP (unregCall id) ∧
    ((∀ p ∈ (run E {} ops).queue, isUnregPost id p = false) → (∀ c ∈ (run E {} ops).cmds, isUnregister id c = false) →
      (run E {} ops).log.countP (unregAnswer id) = (run E {} ops).log.countP (unregCall id)) := by
  have h := (invR_run (E := E) invR_init ops).unreg id
  refine ⟨by omega, ?_⟩
  intro h1 h2
  have e1 : (run E {} ops).queue.countP (isUnregPost id) = 0 := by
    rw [List.countP_eq_zero]; intro c hc; simp [h1 c hc]
  have e2 : (run E {} ops).cmds.countP (isUnregister id) = 0 := by
    rw [List.countP_eq_zero]; intro c hc; simp [h2 c hc]
  omega

/-- The filter of a registration becomes active exactly when the registration succeeds: the reply that succeeds sets it,
under a new identifier, and then invokes the success callback; the reply that fails invokes the failure callback only. -/
theorem C80_reply (ops : List (Op I D)) (k : Nat) (ok : Bool) (id : Nat) (pfx : List Comp) (f : Filter)
    (hk : (run E {} ops).cmds[k]? = some (.register id pfx (some f))) :
    ∃ fid, (∀ g, ¬ Live (run E {} ops).log fid g) ∧
      (step E (run E {} ops) (.reply k ok)).log =
        (run E {} ops).log ++ (if ok then [.filterSet fid f, .regOk id] else [.regFail id]) ∧
      (∀ x g, Live (step E (run E {} ops) (.reply k ok)).log x g ↔ Live (run E {} ops).log x g ∨ (ok = true ∧ x = fid ∧ g = f)) := by
  have hF := invF_run (E := E) invF_init ops
  have hF' := invF_step hF (.reply k ok)
  have hA := invA_run (E := E) inv_init ops
  have hD := invD_step hF (inv_all (ops := ops) inv_init invF_init invD_init) (kind_step hA hF (.reply k ok))
  generalize run E {} ops = s at *
  have hnew : ∀ g, ¬ Live s.log (s.lastFilter + 1) g := by
    intro g hg
    have : s.lastFilter + 1 ∈ setIds s.log := List.mem_filterMap.2 ⟨_, hg.1, rfl⟩
    have := hF.le _ (List.mem_append_left _ this)
    omega
  have hun : Obs.filterUnset (s.lastFilter + 1) ∉ s.log := by
    intro hh; have := (hF.unset _ hh).2; omega
  have hlog : (step E s (.reply k ok)).log = s.log ++ (if ok then [.filterSet (s.lastFilter + 1) f, .regOk id] else [.regFail id]) := by
    have hno := hD.nodup
    simp only [step, doReply, hk] at hno ⊢
    cases ok with
    | false => simp
    | true =>
      simp only [if_true] at hno ⊢
      cases hb : (putFilter (s.lastFilter + 1) f s.filters).2 with
      | false => simp [dupObs]
      | true => rw [hb] at hno; simp [dupObs] at hno
  refine ⟨s.lastFilter + 1, hnew, hlog, ?_⟩
  intro x g
  rw [hlog]
  unfold Live
  cases ok with
  | false => simp
  | true =>
    simp only [if_true, List.mem_append, List.mem_cons, List.not_mem_nil, or_false, not_or, true_and]
    constructor
    · rintro ⟨(h1 | h1 | h1), h2, _⟩
      · exact Or.inl ⟨h1, h2⟩
      · cases h1; exact Or.inr ⟨rfl, rfl⟩
      · cases h1
    · rintro (⟨h1, h2⟩ | ⟨rfl, rfl⟩)
      · exact ⟨Or.inl h1, h2, by simp⟩
      · exact ⟨Or.inr (Or.inl rfl), hun, by simp⟩

/-- When the handler of `unregister` runs for a prefix that is registered, its filter is no longer active, before the
command is answered; for one that is not, the failure callback is invoked and nothing else happens. -/
theorem C80_unregister (ops : List (Op I D)) (id : Nat) :
    (∀ r ∈ (run E {} ops).regs, r.id = id →
      (∀ f, r.filterId ≠ 0 → ¬ Live (handle E (fun _ => false) (run E {} ops) (.unregister id)).log r.filterId f) ∧
      (handle E (fun _ => false) (run E {} ops) (.unregister id)).cmds = (run E {} ops).cmds ++ [.unregister id]) ∧
    ((∀ r ∈ (run E {} ops).regs, r.id ≠ id) →
      handle E (fun _ => false) (run E {} ops) (.unregister id) =
        { run E {} ops with log := (run E {} ops).log ++ [.unregFail id] }) := by
  have hR := invR_run (E := E) invR_init ops
  generalize run E {} ops = s at *
  constructor
  · intro r hr hid
    obtain ⟨δ, fs, cs, hs, hd⟩ := doUnregister_shape s id
    simp only [handle]
    rw [hs]
    rcases hd with ⟨h1, h2, h3⟩ | ⟨r', hr', hid', hcs, hd⟩
    · exfalso
      simp only [doUnregister] at hs
      split at hs
      · rename_i hn
        exact absurd (by simp [hid]) (List.find?_eq_none.1 hn r hr)
      · have := congrArg St.cmds hs
        simp only at this
        rw [h3] at this
        have := congrArg List.length this
        split at this <;> simp [doUnset] at this
    · have : r = r' := by
        have hn := hR.nodup
        have key : ∀ l : List Reg, (l.map Reg.id).Nodup → ∀ a ∈ l, ∀ b ∈ l, a.id = b.id → a = b := by
          intro l
          induction l with
          | nil => simp
          | cons x l ih =>
            intro hn a ha b hb hab
            rw [List.map_cons, List.nodup_cons] at hn
            rcases List.mem_cons.1 ha with ha | ha <;> rcases List.mem_cons.1 hb with hb | hb
            · rw [ha, hb]
            · exact absurd (List.mem_map.2 ⟨b, hb, by rw [← hab, ha]⟩) hn.1
            · exact absurd (List.mem_map.2 ⟨a, ha, by rw [hab, hb]⟩) hn.1
            · exact ih hn.2 a ha b hb hab
        exact key s.regs hn r hr r' hr' (by rw [hid, hid'])
      subst this
      refine ⟨?_, hcs⟩
      intro f hf hlive
      rcases hd with ⟨h0, _⟩ | ⟨_, hδ, _⟩
      · exact hf h0
      · apply hlive.2
        rw [hδ]; simp
  · intro h
    simp only [handle, doUnregister]
    have : s.regs.find? (fun r => r.id == id) = none := by
      rw [List.find?_eq_none]; intro r hr; simp [h r hr]
    rw [this]

/-- The full claim: after `unregister` is called on a registration that is never answered with failure, its filter is not
active once everything posted and every command has been processed. -/
def C80_claim : Prop :=
  ∀ (I D : Type) (E : Env I D) (ops : List (Op I D)),
    (run E {} ops).queue = [] → (run E {} ops).cmds.length = 0 →
    Obs.callUnregister 1 ∈ (run E {} ops).log → (∀ id f, (id, f) ∉ (run E {} ops).filters)

/-- Unregistering before the registration is answered fails, and the prefix and its filter become active afterwards. -/
theorem C80_early_counterexample : ¬ C80_claim := by
  intro h
  have := h Nat Nat demo [.register slashA.pfx (some slashA), .unregister 1, .run calmly, .reply 0 true] rfl rfl
    (by simp [run, step, handle, doUnregister, doReply]) 1 slashA
  exact this (by simp [run, step, handle, doUnregister, doReply, putFilter])

/-- `shutdown` forgets the registered prefixes but leaves their filters active: they can no longer be unregistered. -/
theorem C80_shutdown_counterexample :
    ∃ ops : List (Op Nat Nat), (run demo {} ops).log =
      [.callRegister 1, .filterSet 1 slashA, .regOk 1, .cleared, .callUnregister 1, .unregFail 1, .arrived 1 1 0, .interest 1 1 1] :=
  ⟨[.register slashA.pfx (some slashA), .reply 0 true, .shutdown, .run calmly, .unregister 1, .run calmly, .recvInterest 1 calmly], rfl⟩

/-- Registration, use, unregistration. -/
example : (run demo {} [.register slashA.pfx (some slashA), .reply 0 true, .recvInterest 1 calmly, .unregister 1, .run calmly,
    .recvInterest 2 calmly, .reply 0 true]).log =
      [.callRegister 1, .filterSet 1 slashA, .regOk 1, .arrived 1 1 0, .interest 1 1 1, .callUnregister 1, .filterUnset 1,
       .arrived 2 2 0, .unregOk 1] := rfl

end Ndn.Face
