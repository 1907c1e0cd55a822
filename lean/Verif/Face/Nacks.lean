import Verif.Face.Once
/-
The invariant of the Nack counts, for histories in which no callback throws (C49).
-/
namespace Ndn.Face
open Spec
open scoped List
variable {I D : Type} {E : Env I D}

/-- Observations that are neither a record made, a delivery nor a Nack processed. -/
def neutral : Obs I D → Bool
  | .expressed _ _ _ | .arrived _ _ _ | .interest _ _ _ | .gotNack _ | .putNack _ => false
  | _ => true

theorem neutral_nacks {l : List (Obs I D)} (h : ∀ o ∈ l, neutral o = true) : l.filterMap nackOf = [] := by
  rw [List.filterMap_eq_nil_iff]
  intro o ho
  have := h o ho
  cases o <;> simp [neutral] at this <;> rfl

theorem neutral_dest {l : List (Obs I D)} (h : ∀ o ∈ l, neutral o = true) (id : Nat) : destinations id l = 0 := by
  unfold destinations
  rw [List.countP_eq_zero]
  intro o ho
  have := h o ho
  cases o <;> simp [neutral] at this <;> simp [destination]

theorem dest_append (id : Nat) (a b : List (Obs I D)) :
    destinations id (a ++ b) = destinations id a + destinations id b := List.countP_append

theorem nacksFor_append {id : Nat} {i : I} {a : List (Obs I D)} (b : List (Obs I D)) (h : id ∈ creIds a) :
    nacksFor E id i (a ++ b) = nacksFor E id i a ++ (b.filterMap nackOf).filter (fun n => E.matchesInterest n.interest i) := by
  unfold nacksFor
  rw [since_append_old b h, List.filterMap_append, List.filter_append]

theorem nacksFor_neutral {id : Nat} {i : I} {a b : List (Obs I D)} (h : id ∈ creIds a)
    (hb : ∀ o ∈ b, neutral o = true) : nacksFor E id i (a ++ b) = nacksFor E id i a := by
  rw [nacksFor_append b h, neutral_nacks hb]; simp

/-- The Nack is one of the least severe. -/
def Least (m : Nack I) (ns : List (Nack I)) : Prop :=
  m ∈ ns ∧ ∀ n ∈ ns, ¬ LessSevere n.reason m.reason

/-- The state of an entry agrees with the log. -/
def Counted (E : Env I D) (log : List (Obs I D)) (e : Entry I) : Prop :=
  e.nNotNacked = (destinations e.id log : Int) - (nacksFor E e.id e.interest log).length ∧
  ((nacksFor E e.id e.interest log = [] ∧ e.least = none) ∨
   (0 < e.nNotNacked ∧ ∃ m, e.least = some m ∧ Least m (nacksFor E e.id e.interest log)))

/-- The report of a Nack agrees with the log up to it. -/
def Reported (E : Env I D) (log : List (Obs I D)) (id : Nat) (i : I) (m : Nack I) : Prop :=
  destinations id log ≤ (nacksFor E id i log).length ∧ Least m (nacksFor E id i log)

structure InvC (E : Env I D) (s : St I D) : Prop where
  cnt : ∀ e ∈ s.pit, Counted E s.log e
  rep : ∀ pre post id i m, s.log = pre ++ .nack id i m :: post → Reported E pre id i m
  sent : ∀ pre post m, s.log = pre ++ .sentNack m :: post → ∃ id i t, Obs.arrived id i t ∈ pre ∧ Reported E pre id i m
  free : ∀ id, id ∉ creIds s.log → destinations id s.log = 0

theorem invC_init : InvC E ({} : St I D) := by
  constructor <;> simp [destinations]

theorem counted_neutral {log δ : List (Obs I D)} {e : Entry I} (h : Counted E log e) (hid : e.id ∈ creIds log)
    (hδ : ∀ o ∈ δ, neutral o = true) : Counted E (log ++ δ) e := by
  unfold Counted
  rw [nacksFor_neutral hid hδ, dest_append, neutral_dest hδ]
  exact h

theorem lessSevere_iff (x y : Int) : Lp.isLessSevere x y = true ↔ LessSevere x y := by
  unfold Lp.isLessSevere LessSevere
  by_cases hx : x = 0
  · simp [hx]
  · by_cases hy : y = 0
    · simp [hx, hy]
    · simp [hx, hy]

/-- Splitting an occurrence in an extended log. -/
theorem split_occ {α : Type} {log δ pre post : List α} {o : α} (h : log ++ δ = pre ++ o :: post) :
    (∃ c, log = pre ++ o :: c) ∨ (∃ c, pre = log ++ c ∧ δ = c ++ o :: post) := by
  rcases List.append_eq_append_iff.1 h with ⟨c, hc1, hc2⟩ | ⟨c, hc1, hc2⟩
  · exact Or.inr ⟨c, hc1, hc2⟩
  · cases c with
    | nil => exact Or.inr ⟨[], by simpa using hc1.symm, by simpa using hc2.symm⟩
    | cons x c =>
      simp only [List.cons_append, List.cons.injEq] at hc2
      obtain ⟨rfl, _⟩ := hc2
      exact Or.inl ⟨c, hc1⟩

/-- Neutral and free of reports. -/
def calmObs (o : Obs I D) : Prop := neutral o = true ∧ (∀ id i m, o ≠ .nack id i m) ∧ ∀ m, o ≠ .sentNack m

theorem invC_quiet {s s' : St I D} {δ : List (Obs I D)} (hA : InvA E s) (h : InvC E s) (hl : s'.log = s.log ++ δ)
    (hδ : ∀ o ∈ δ, calmObs o) (hp : ∀ e ∈ s'.pit, e ∈ s.pit) : InvC E s' := by
  have hn : ∀ o ∈ δ, neutral o = true := fun o ho => (hδ o ho).1
  refine ⟨?_, ?_, ?_, ?_⟩
  · intro e he
    rw [hl]
    exact counted_neutral (h.cnt e (hp e he)) (pit_ids_created hA (hp e he)) hn
  · intro pre post id i m hab
    rw [hl] at hab
    rcases split_occ hab with ⟨c, hc⟩ | ⟨c, _, hc⟩
    · exact h.rep pre c id i m hc
    · exact absurd rfl ((hδ (.nack id i m) (by rw [hc]; simp)).2.1 id i m)
  · intro pre post m hab
    rw [hl] at hab
    rcases split_occ hab with ⟨c, hc⟩ | ⟨c, _, hc⟩
    · exact h.sent pre c m hc
    · exact absurd rfl ((hδ (.sentNack m) (by rw [hc]; simp)).2.2 m)
  · intro id hid
    rw [hl, creIds_append, List.mem_append, not_or] at hid
    rw [hl, dest_append, h.free id hid.1, neutral_dest hn]

theorem dispatch_count (boom : Nat → Bool) (e : Entry I) (fs : List (Nat × Filter)) :
    (dispatch (D := D) E boom e fs).1.nNotNacked =
      e.nNotNacked + (destinations e.id (dispatch (D := D) E boom e fs).2 : Int) := by
  induction fs generalizing e with
  | nil => simp [dispatch, destinations]
  | cons x fs ih =>
    obtain ⟨fid, f⟩ := x
    simp only [dispatch]
    split
    · exact ih e
    · split
      · simp [destinations, destination]
      · rw [ih]
        unfold destinations
        rw [List.countP_cons]
        simp [destination]
        omega

theorem invC_create {s s' : St I D} (hA : InvA E s) (h : InvC E s) (e : Entry I) (c : Obs I D) (δ : List (Obs I D))
    (hl : s'.log = s.log ++ c :: δ)
    (hδ : ∀ o ∈ δ, (nackOf o = none) ∧ (∀ id i m, o ≠ .nack id i m) ∧ (∀ m, o ≠ .sentNack m) ∧ ∀ id, destination id o = true → id = e.id)
    (hc : (∃ i t, c = .expressed e.id i t) ∨ (∃ i t, c = .arrived e.id i t))
    (hf : e.id ∉ creIds s.log) (hle : e.least = none)
    (hn : e.nNotNacked = (destinations e.id (c :: δ) : Int))
    (hp : s'.pit = (putEntry e s.pit).1) : InvC E s' := by
  have hn0 : (c :: δ).filterMap nackOf = [] := by
    rw [List.filterMap_eq_nil_iff]
    intro o ho
    rcases List.mem_cons.1 ho with ho | ho
    · subst ho; rcases hc with ⟨i, t, rfl⟩ | ⟨i, t, rfl⟩ <;> rfl
    · exact (hδ o ho).1
  have hd0 : ∀ id, id ≠ e.id → destinations id (c :: δ) = 0 := by
    intro id hne
    unfold destinations
    rw [List.countP_eq_zero]
    intro o ho
    rcases List.mem_cons.1 ho with ho | ho
    · subst ho
      rcases hc with ⟨i, t, rfl⟩ | ⟨i, t, rfl⟩ <;> simp [destination]
      exact fun hh => hne hh.symm
    · intro hh; exact hne ((hδ o ho).2.2.2 id hh)
  refine ⟨?_, ?_, ?_, ?_⟩
  · intro x hx
    rw [hp] at hx
    rw [hl]
    rcases putEntry_mem_id hx with rfl | hx
    · have hz : nacksFor E x.id x.interest (s.log ++ c :: δ) = [] := by
        unfold nacksFor
        rw [since_append_new _ hf]
        have : (since x.id (c :: δ)).filterMap nackOf = [] := by
          rw [List.filterMap_eq_nil_iff] at hn0 ⊢
          exact fun o ho => hn0 o (since_sub _ _ o ho)
        rw [this]; rfl
      refine ⟨?_, Or.inl ⟨hz, hle⟩⟩
      rw [hz, dest_append, h.free _ hf, hn]; simp
    · have hid := pit_ids_created hA hx
      have hne : x.id ≠ e.id := fun hh => hf (hh ▸ hid)
      unfold Counted
      rw [nacksFor_append _ hid, hn0, dest_append, hd0 _ hne]
      have := h.cnt x hx
      unfold Counted at this
      simpa using this
  · intro pre post id i m hab
    rw [hl] at hab
    rcases split_occ hab with ⟨k, hk⟩ | ⟨k, _, hk⟩
    · exact h.rep pre k id i m hk
    · exfalso
      have hm : Obs.nack id i m ∈ c :: δ := by rw [hk]; simp
      rcases List.mem_cons.1 hm with hm | hm
      · rcases hc with ⟨i, t, rfl⟩ | ⟨i, t, rfl⟩ <;> simp at hm
      · exact (hδ _ hm).2.1 id i m rfl
  · intro pre post m hab
    rw [hl] at hab
    rcases split_occ hab with ⟨k, hk⟩ | ⟨k, _, hk⟩
    · exact h.sent pre k m hk
    · exfalso
      have hm : Obs.sentNack m ∈ c :: δ := by rw [hk]; simp
      rcases List.mem_cons.1 hm with hm | hm
      · rcases hc with ⟨i, t, rfl⟩ | ⟨i, t, rfl⟩ <;> simp at hm
      · exact (hδ _ hm).2.2.1 m rfl
  · intro id hid
    rw [hl, creIds_append, List.mem_append, not_or] at hid
    have hne : id ≠ e.id := by
      intro hh; subst hh
      apply hid.2
      rw [mem_creIds_iff]
      exact ⟨c, by simp, by rcases hc with ⟨i, t, rfl⟩ | ⟨i, t, rfl⟩ <;> simp [creates]⟩
    rw [hl, dest_append, h.free id hid.1, hd0 id hne]

/-- Recording a Nack keeps an entry in agreement, or reports it. -/
theorem recordNack_counted {log : List (Obs I D)} {e : Entry I} {n : Nack I} {o : Obs I D}
    (h : Counted E log e) (hid : e.id ∈ creIds log)
    (hm : E.matchesInterest n.interest e.interest = true) (ho : nackOf o = some n) (hd : destination e.id o = false) :
    ((recordNack e n).2.1 = none → Counted E (log ++ [o]) (recordNack e n).1) ∧
    (∀ m, (recordNack e n).2.1 = some m → Reported E (log ++ [o]) e.id e.interest m) := by
  have hN : nacksFor E e.id e.interest (log ++ [o]) = nacksFor E e.id e.interest log ++ [n] := by
    rw [nacksFor_append _ hid]; simp [ho, hm]
  have hD : destinations e.id (log ++ [o]) = destinations e.id log := by
    rw [dest_append]; simp [destinations, hd]
  obtain ⟨h1, h2⟩ := h
  -- the least severe Nack
  have key : ∃ m, (recordNack e n).1.least = some m ∧ Least m (nacksFor E e.id e.interest log ++ [n]) ∧
      (recordNack e n).1.nNotNacked = e.nNotNacked - 1 ∧
      (recordNack e n).2.1 = (if e.nNotNacked - 1 > 0 then none else some m) := by
    rcases h2 with ⟨hz, hl⟩ | ⟨_, m, hl, hm1, hm2⟩
    · refine ⟨n, ?_, ?_, ?_, ?_⟩
      · simp [recordNack, hl]
      · rw [hz]
        refine ⟨by simp, ?_⟩
        intro x hx
        simp at hx; subst hx
        unfold LessSevere; omega
      · simp [recordNack, hl]
      · simp [recordNack, hl]
    · by_cases hs : Lp.isLessSevere n.reason m.reason = true
      · refine ⟨n, ?_, ?_, ?_, ?_⟩
        · simp [recordNack, hl, hs]
        · refine ⟨by simp, ?_⟩
          rw [lessSevere_iff] at hs
          intro x hx
          rcases List.mem_append.1 hx with hx | hx
          · have := hm2 x hx
            unfold LessSevere at this hs ⊢
            omega
          · simp at hx; subst hx
            unfold LessSevere; omega
        · simp [recordNack, hl, hs]
        · simp [recordNack, hl, hs]
      · refine ⟨m, ?_, ?_, ?_, ?_⟩
        · simp [recordNack, hl, hs]
        · refine ⟨by simp [hm1], ?_⟩
          rw [lessSevere_iff] at hs
          intro x hx
          rcases List.mem_append.1 hx with hx | hx
          · exact hm2 x hx
          · simp at hx; subst hx; exact hs
        · simp [recordNack, hl, hs]
        · simp [recordNack, hl, hs]
  obtain ⟨m, k1, k2, k3, k4⟩ := key
  have hc := recordNack_core e n
  simp only [core, Prod.mk.injEq] at hc
  rw [k4]
  constructor
  · intro hnone
    have hpos : e.nNotNacked - 1 > 0 := by
      by_cases hh : e.nNotNacked - 1 > 0
      · exact hh
      · rw [if_neg hh] at hnone; simp at hnone
    unfold Counted
    rw [hc.1, hc.2.1, hN, hD, k1, k3]
    refine ⟨by simp; omega, Or.inr ⟨hpos, m, rfl, k2⟩⟩
  · intro m' hm'
    by_cases hh : e.nNotNacked - 1 > 0
    · rw [if_pos hh] at hm'; simp at hm'
    · rw [if_neg hh] at hm'
      simp at hm'
      subst hm'
      unfold Reported
      rw [hN, hD]
      refine ⟨by simp; omega, k2⟩

theorem nackLoop_out (n : Nack I) {boom : Nat → Bool} (hb : ∀ x, boom x = false) (es : List (Entry I)) {m : Nack I}
    (h : (nackLoop (D := D) E n boom es).outNack = some m) :
    ∃ e ∈ es, E.matchesInterest n.interest e.interest = true ∧ e.app = false ∧ (recordNack e n).2.1 = some m := by
  induction es with
  | nil => simp [nackLoop] at h
  | cons e es ih =>
    have tl : (nackLoop (D := D) E n boom es).outNack = some m → ∃ x ∈ e :: es, E.matchesInterest n.interest x.interest = true ∧ x.app = false ∧ (recordNack x n).2.1 = some m := by
      intro h
      obtain ⟨x, hx, h'⟩ := ih h
      exact ⟨x, by simp [hx], h'⟩
    simp only [nackLoop] at h
    split at h
    · exact tl h
    · rename_i hm
      have hm : E.matchesInterest n.interest e.interest = true := by simpa using hm
      split at h
      · exact tl h
      · rename_i m' hr
        split at h
        · rw [hb] at h
          exact tl h
        · rename_i ha
          simp only at h
          cases hx : (nackLoop (D := D) E n boom es).outNack with
          | none => rw [hx] at h; simp at h; subst h; exact ⟨e, by simp, hm, by simpa using ha, hr⟩
          | some m'' => rw [hx] at h; simp at h; subst h; exact tl hx

theorem neutral_obsN (n : Nack I) (es : List (Entry I)) : ∀ o ∈ es.flatMap (obsN (D := D) E n), neutral o = true := by
  intro o ho
  obtain ⟨e, _, he⟩ := List.mem_flatMap.1 ho
  unfold obsN at he
  split at he
  · rcases List.mem_append.1 he with he | he
    · cases hb : (recordNack e n).2.2 <;> simp [hb, countObs] at he; subst he; rfl
    · split at he
      · simp at he
      · split at he
        · simp at he; subst he; rfl
        · simp at he
  · simp at he

theorem reported_neutral {log δ : List (Obs I D)} {id : Nat} {i : I} {m : Nack I} (h : Reported E log id i m)
    (hid : id ∈ creIds log) (hδ : ∀ o ∈ δ, neutral o = true) : Reported E (log ++ δ) id i m := by
  unfold Reported
  rw [nacksFor_neutral hid hδ, dest_append, neutral_dest hδ]
  exact h

theorem invC_nack {s s' : St I D} (hA : InvA E s) (h : InvC E s) (n : Nack I) (o : Obs I D) (δ₂ : List (Obs I D))
    {boom : Nat → Bool} (hb : ∀ x, boom x = false)
    (ho : o = .gotNack n ∨ o = .putNack n)
    (hl : s'.log = s.log ++ (o :: s.pit.flatMap (obsN E n) ++ δ₂))
    (h2 : δ₂ = [] ∨ δ₂ = [.oversized] ∨ ∃ m, (nackLoop (D := D) E n boom s.pit).outNack = some m ∧ δ₂ = [.sentNack m])
    (hp : s'.pit = s.pit.filterMap (keepN E n)) : InvC E s' := by
  have hno : nackOf o = some n := by rcases ho with rfl | rfl <;> rfl
  have hdo : ∀ id, destination id o = false := by intro id; rcases ho with rfl | rfl <;> rfl
  have hcro : creIds [o] = [] := by rcases ho with rfl | rfl <;> rfl
  have n1 := neutral_obsN (D := D) (E := E) n s.pit
  have n2 : ∀ x ∈ δ₂, neutral x = true := by
    rcases h2 with rfl | rfl | ⟨m, _, rfl⟩ <;> simp [neutral]
  have n12 : ∀ x ∈ s.pit.flatMap (obsN E n) ++ δ₂, neutral x = true := by
    intro x hx
    rcases List.mem_append.1 hx with hx | hx
    · exact n1 x hx
    · exact n2 x hx
  have hl' : s'.log = (s.log ++ [o]) ++ (s.pit.flatMap (obsN E n) ++ δ₂) := by rw [hl]; simp
  have cid : ∀ {id}, id ∈ creIds s.log → id ∈ creIds (s.log ++ [o]) := by
    intro id hid; rw [creIds_append]; simp [hid]
  refine ⟨?_, ?_, ?_, ?_⟩
  · intro e' he'
    rw [hp] at he'
    obtain ⟨e, he, hk⟩ := List.mem_filterMap.1 he'
    have hid := pit_ids_created hA he
    have ci := (keepN_ok n e e' hk).1
    simp only [core, Prod.mk.injEq] at ci
    rw [hl']
    apply counted_neutral _ (by rw [← ci.1]; exact cid hid) n12
    unfold keepN at hk
    by_cases hm : E.matchesInterest n.interest e.interest = true
    · rw [if_pos hm] at hk
      obtain ⟨r1, _⟩ := recordNack_counted (h.cnt e he) hid hm hno (hdo _)
      cases hr : (recordNack e n).2.1 with
      | none => rw [hr] at hk; simp at hk; subst hk; exact r1 hr
      | some m => rw [hr] at hk; simp at hk
    · rw [if_neg hm] at hk
      simp at hk; subst hk
      unfold Counted
      rw [nacksFor_append _ hid, dest_append]
      have hm' : E.matchesInterest n.interest e.interest = false := by simpa using hm
      have d0 : destinations e.id [o] = 0 := by simp [destinations, hdo]
      rw [d0]
      have := h.cnt e he
      unfold Counted at this
      simpa [hno, hm'] using this
  · intro pre post id i m hab
    rw [hl'] at hab
    rcases split_occ hab with ⟨k, hk⟩ | ⟨k, hk, hk2⟩
    · rcases split_occ hk with ⟨k', hk'⟩ | ⟨k', _, hk'⟩
      · exact h.rep pre k' id i m hk'
      · exfalso
        have : Obs.nack id i m ∈ [o] := by rw [hk']; simp
        simp at this
        rcases ho with rfl | rfl <;> simp at this
    · have hmem : Obs.nack id i m ∈ s.pit.flatMap (obsN E n) ++ δ₂ := by rw [hk2]; simp
      have hmem : Obs.nack id i m ∈ s.pit.flatMap (obsN E n) := by
        rcases List.mem_append.1 hmem with hh | hh
        · exact hh
        · rcases h2 with rfl | rfl | ⟨m, _, rfl⟩ <;> simp at hh
      obtain ⟨e, he, hob⟩ := List.mem_flatMap.1 hmem
      have hid := pit_ids_created hA he
      unfold obsN at hob
      split at hob
      · rename_i hm
        rcases List.mem_append.1 hob with hob | hob
        · cases hb : (recordNack e n).2.2 <;> simp [hb, countObs] at hob
        · cases hr : (recordNack e n).2.1 with
          | none => rw [hr] at hob; simp at hob
          | some m' =>
            rw [hr] at hob
            simp only at hob
            split at hob
            · simp at hob
              obtain ⟨rfl, rfl, rfl⟩ := hob
              obtain ⟨_, r2⟩ := recordNack_counted (h.cnt e he) hid hm hno (hdo _)
              rw [hk]
              apply reported_neutral (r2 m hr) (cid hid)
              intro x hx
              exact n12 x (by rw [hk2]; simp [hx])
            · simp at hob
      · simp at hob
  · intro pre post m hab
    rw [hl'] at hab
    rcases split_occ hab with ⟨k, hk⟩ | ⟨k, hk, hk2⟩
    · rcases split_occ hk with ⟨k', hk'⟩ | ⟨k', _, hk'⟩
      · exact h.sent pre k' m hk'
      · exfalso
        have : Obs.sentNack m ∈ [o] := by rw [hk']; simp
        simp at this
        rcases ho with rfl | rfl <;> simp at this
    · have hmem : Obs.sentNack m ∈ s.pit.flatMap (obsN E n) ++ δ₂ := by rw [hk2]; simp
      rcases List.mem_append.1 hmem with hh | hh
      · exfalso
        obtain ⟨e, _, hob⟩ := List.mem_flatMap.1 hh
        unfold obsN at hob
        split at hob
        · rcases List.mem_append.1 hob with hob | hob
          · cases hb : (recordNack e n).2.2 <;> simp [hb, countObs] at hob
          · cases hr : (recordNack e n).2.1 with
            | none => rw [hr] at hob; simp at hob
            | some m' =>
              rw [hr] at hob
              simp only at hob
              split at hob <;> simp at hob
        · simp at hob
      · rcases h2 with rfl | rfl | ⟨m', hm', rfl⟩
        · simp at hh
        · simp at hh
        · have : m = m' := by simpa using hh
          subst this
          obtain ⟨e, he, hm, ha, hr⟩ := nackLoop_out n hb s.pit hm'
          have hid := pit_ids_created hA he
          obtain ⟨_, r2⟩ := recordNack_counted (h.cnt e he) hid hm hno (hdo _)
          obtain ⟨t, _, hc, _⟩ := hA.cre e he
          unfold creation at hc
          rw [ha] at hc
          refine ⟨e.id, e.interest, t, ?_, ?_⟩
          · rw [hk]; simp at hc; simp [hc]
          · rw [hk]
            apply reported_neutral (r2 m hr) (cid hid)
            intro x hx
            exact n12 x (by rw [hk2]; simp [hx])
  · intro id hid
    rw [hl', creIds_append, creIds_append, List.mem_append, List.mem_append, not_or, not_or] at hid
    rw [hl', dest_append, dest_append, h.free id hid.1.1, neutral_dest n12]
    simp [destinations, hdo]

theorem calm_dup (b : Bool) : ∀ o ∈ (dupObs b : List (Obs I D)), calmObs o := by
  cases b <;> simp [dupObs, calmObs, neutral]

theorem calm_obsD (d : D) (es : List (Entry I)) : ∀ o ∈ es.flatMap (obsD E d), calmObs o := by
  intro o ho
  obtain ⟨e, _, he⟩ := List.mem_flatMap.1 ho
  unfold obsD at he
  split at he
  · simp at he; subst he; simp [calmObs, neutral]
  · simp at he

theorem keepD_mem (d : D) (es : List (Entry I)) : ∀ e ∈ es.filterMap (keepD E d), e ∈ es := by
  intro e he
  obtain ⟨x, hx, hk⟩ := List.mem_filterMap.1 he
  unfold keepD at hk
  split at hk
  · simp at hk
  · simp at hk; subst hk; exact hx

theorem invC_handle {s : St I D} (hA : InvA E s) (h : InvC E s) {boom : Nat → Bool} (hb : ∀ x, boom x = false) (p : Post I D)
    (ps : List (Post I D)) (hq : s.queue = p :: ps) : InvC E (handle E boom { s with queue := ps } p) := by
  cases p with
  | express id i =>
    obtain ⟨e, δ, hs, hc, ha, hle, hd⟩ := doExpress_shape (E := E) boom { s with queue := ps } id i
    simp only [core, Prod.mk.injEq] at hc
    have hf : e.id ∉ creIds s.log := by
      have := hA.nodup
      rw [hq, List.nodup_append] at this
      rw [hc.1]
      intro hh
      exact this.2.2 id hh id (by simp [qIds]) rfl
    have hdup : (putEntry e s.pit).2 = false := by
      apply (putEntry_fresh e s.pit _).1
      intro x hx hh
      exact hf (hh ▸ pit_ids_created hA hx)
    simp only [handle]
    rcases hd with ⟨hz, hn, hδ⟩ | ⟨hz, he, hδ⟩
    · simp only [hdup, dupObs] at hδ
      refine invC_create hA h e (.expressed id i s.now) δ (by rw [hs]) ?_ (Or.inl ⟨i, s.now, by rw [hc.1]⟩) hf hle ?_ (by rw [hs])
      · rw [hδ]; simp [nackOf, destination]
      · rw [hn, hδ, hc.1]; simp [destinations, destination]
    · simp only [hdup, dupObs] at hδ
      refine invC_create hA h e (.expressed id i s.now) δ (by rw [hs]) ?_ (Or.inl ⟨i, s.now, by rw [hc.1]⟩) hf hle ?_ (by rw [hs])
      · rw [hδ]
        intro o ho
        simp only [Bool.false_eq_true, if_false, List.nil_append, List.mem_cons] at ho
        rcases ho with rfl | ho
        · simp [nackOf, destination]
        · obtain ⟨x, _, _, rfl⟩ := dispatch_log _ _ _ _ ho
          refine ⟨rfl, by simp, by simp, ?_⟩
          intro id' h'
          simp [destination, newEntry] at h'
          rw [hc.1, h']
      · have hcnt := dispatch_count (D := D) (E := E) boom { newEntry E id i true s.now with nNotNacked := 1 } s.filters
        rw [hδ, hc.1, he]
        simp only [] at hcnt ⊢
        rw [hcnt]
        simp only [destinations, newEntry, Bool.false_eq_true, if_false, List.nil_append, List.countP_cons, destination, beq_self_eq_true, if_true]
        omega
  | cancel id =>
    exact invC_quiet hA h (δ := [.cancelled id]) rfl (by simp [calmObs, neutral]) (fun e he => (List.mem_filter.1 he).1)
  | removeAll => exact invC_quiet hA h (δ := [.cleared]) rfl (by simp [calmObs, neutral]) (by simp [handle])
  | putData d =>
    obtain ⟨δ, hs, hd⟩ := doPutData_shape (E := E) boom { s with queue := ps } d
    have hc := satisfy_calm (E := E) d hb s.pit
    refine invC_quiet hA h (δ := .putData d :: s.pit.flatMap (obsD E d) ++ δ) ?_ ?_ ?_
    · simp only [handle]; rw [hs]; simp [hc]
    · intro o ho
      rcases List.mem_append.1 ho with ho | ho
      · rcases List.mem_cons.1 ho with ho | ho
        · subst ho; simp [calmObs, neutral]
        · exact calm_obsD d _ o ho
      · rcases hd with rfl | rfl | rfl <;> simp at ho <;> subst ho <;> simp [calmObs, neutral]
    · simp only [handle]; rw [hs]; simp only [hc]; exact keepD_mem d s.pit
  | putNack n =>
    obtain ⟨c1, c2, c3⟩ := nackLoop_calm (E := E) (D := D) n hb s.pit
    simp only [handle, doPutNack]
    rw [c3]
    simp only [Bool.false_eq_true, if_false]
    split
    · exact invC_nack hA h n (.putNack n) [] hb (Or.inr rfl) (by simp [c2]) (Or.inl rfl) c1
    · rename_i m hm
      split
      · exact invC_nack hA h n (.putNack n) [.oversized] hb (Or.inr rfl) (by simp [c2]) (Or.inr (Or.inl rfl)) c1
      · exact invC_nack hA h n (.putNack n) [.sentNack m] hb (Or.inr rfl) (by simp [c2]) (Or.inr (Or.inr ⟨m, hm, rfl⟩)) c1
  | setFilter fid f =>
    refine invC_quiet hA h (δ := .filterSet fid f :: dupObs (putFilter fid f s.filters).2) rfl ?_ (fun e he => he)
    intro o ho
    rcases List.mem_cons.1 ho with ho | ho
    · subst ho; simp [calmObs, neutral]
    · exact calm_dup _ _ ho
  | unsetFilter fid => exact invC_quiet hA h (δ := [.filterUnset fid]) rfl (by simp [calmObs, neutral]) (fun e he => he)
  | unregister id =>
    obtain ⟨δ, fs, cs, hs, hd⟩ := doUnregister_shape { s with queue := ps } id
    refine invC_quiet hA h (δ := δ) (by simp only [handle]; rw [hs]) ?_ (by simp only [handle]; rw [hs]; exact fun e he => he)
    rcases hd with ⟨rfl, _⟩ | ⟨r, _, _, _, ⟨_, rfl, _⟩ | ⟨_, rfl, _⟩⟩ <;> simp [calmObs, neutral]
  | shutdown => exact invC_quiet hA h (δ := [.cleared]) rfl (by simp [calmObs, neutral]) (by simp [handle, doShutdown])

theorem invC_step {s : St I D} (hA : InvA E s) (h : InvC E s) (op : Op I D) (hc : Calm op) : InvC E (step E s op) := by
  have quiet0 : ∀ s' : St I D, s'.log = s.log → s'.pit = s.pit → InvC E s' := by
    intro s' h1 h2
    exact invC_quiet hA h (δ := []) (by simp [h1]) (by simp) (by rw [h2]; exact fun e he => he)
  cases op with
  | express i => exact invC_quiet hA h (δ := [.callExpress (s.lastPit + 1) i]) rfl (by simp [calmObs, neutral]) (fun e he => he)
  | cancel id =>
    simp only [step]
    split
    · exact invC_quiet hA h (δ := [.callCancel id]) rfl (by simp [calmObs, neutral]) (fun e he => he)
    · exact h
  | removeAll => exact quiet0 _ rfl rfl
  | putData d => exact quiet0 _ rfl rfl
  | putNack n => exact quiet0 _ rfl rfl
  | setFilter f => exact quiet0 _ rfl rfl
  | unsetFilter fid =>
    simp only [step]
    split
    · exact invC_quiet hA h (δ := [.callUnset fid]) rfl (by simp [calmObs, neutral]) (fun e he => he)
    · exact h
  | register pfx f => exact invC_quiet hA h (δ := [.callRegister (s.lastReg + 1)]) rfl (by simp [calmObs, neutral]) (fun e he => he)
  | unregister id =>
    simp only [step]
    split
    · exact invC_quiet hA h (δ := [.callUnregister id]) rfl (by simp [calmObs, neutral]) (fun e he => he)
    · exact h
  | shutdown => exact quiet0 _ rfl rfl
  | run boom =>
    simp only [step]
    split
    · exact h
    · rename_i p ps hq
      exact invC_handle hA h hc p ps hq
  | fire id boom =>
    simp only [step, doFire]
    have hb : boom id = false := hc id
    split
    · exact h
    · rw [hb]
      split
      · exact invC_quiet hA h (δ := [.timeout id _ s.now]) rfl (by simp [calmObs, neutral]) (fun e he => (List.mem_filter.1 he).1)
      · exact invC_quiet hA h (δ := []) (by simp) (by simp) (fun e he => (List.mem_filter.1 he).1)
  | recvInterest i boom =>
    obtain ⟨e, δ, hs, hcore, ha, hle, he, hδ⟩ := doArrive_shape (E := E) boom s i
    simp only [core, Prod.mk.injEq] at hcore
    have hf : e.id ∉ creIds s.log := by
      rw [hcore.1]
      intro hh
      have := hA.le (s.lastPit + 1) (by simp [hh])
      omega
    have hdup : (putEntry e s.pit).2 = false := by
      apply (putEntry_fresh e s.pit _).1
      intro x hx hh
      exact hf (hh ▸ pit_ids_created hA hx)
    simp only [hdup, dupObs, Bool.false_eq_true, if_false, List.nil_append] at hδ
    simp only [step]
    refine invC_create hA h e (.arrived (s.lastPit + 1) i s.now) δ (by rw [hs]) ?_ (Or.inr ⟨i, s.now, by rw [hcore.1]⟩) hf hle ?_ (by rw [hs])
    · rw [hδ]
      intro o ho
      obtain ⟨x, _, _, rfl⟩ := dispatch_log _ _ _ _ ho
      refine ⟨rfl, by simp, by simp, ?_⟩
      intro id' h'
      simp [destination, newEntry] at h'
      rw [hcore.1, h']
    · have hcnt := dispatch_count (D := D) (E := E) boom (newEntry E (s.lastPit + 1) i false s.now) s.filters
      rw [hδ, hcore.1, he, hcnt]
      simp [destinations, newEntry, List.countP_cons, destination]
  | recvData d boom =>
    have hs := satisfy_calm (E := E) d hc s.pit
    refine invC_quiet hA h (δ := .gotData d :: s.pit.flatMap (obsD E d)) (by simp [step, hs]) ?_ ?_
    · intro o ho
      rcases List.mem_cons.1 ho with ho | ho
      · subst ho; simp [calmObs, neutral]
      · exact calm_obsD d _ o ho
    · simp only [step, hs]; exact keepD_mem d s.pit
  | recvNack n boom =>
    obtain ⟨c1, c2, c3⟩ := nackLoop_calm (E := E) (D := D) n hc s.pit
    exact invC_nack hA h n (.gotNack n) [] hc (Or.inl rfl) (by simp [step, c2]) (Or.inl rfl) c1
  | reply k ok =>
    simp only [step, doReply]
    split
    · exact h
    · split
      · split
        · exact invC_quiet hA h rfl (by simp [calmObs, neutral]) (fun e he => he)
        · refine invC_quiet hA h (by simp only [List.append_assoc, List.cons_append]; rfl) ?_ (fun e he => he)
          intro o ho
          simp only [List.mem_cons, List.mem_append] at ho
          rcases ho with rfl | ho | ho | ho
          · simp [calmObs, neutral]
          · exact calm_dup _ _ ho
          · subst ho; simp [calmObs, neutral]
          · simp at ho
      · exact invC_quiet hA h rfl (by simp [calmObs, neutral]) (fun e he => he)
    · split
      · exact invC_quiet hA h rfl (by simp [calmObs, neutral]) (fun e he => he)
      · exact invC_quiet hA h rfl (by simp [calmObs, neutral]) (fun e he => he)
  | advance dt => exact quiet0 _ rfl rfl
  | unwind => exact invC_quiet hA h (δ := [.cleared]) rfl (by simp [calmObs, neutral]) (by simp [step, doShutdown])

theorem invC_run {ops : List (Op I D)} {s : St I D} (hA : InvA E s) (h : InvC E s) (hc : ∀ op ∈ ops, Calm op) :
    InvC E (run E s ops) := by
  induction ops generalizing s with
  | nil => exact h
  | cons op ops ih => exact ih (invA_step hA op) (invC_step hA h op (hc op (by simp))) (fun o ho => hc o (by simp [ho]))

end Ndn.Face
