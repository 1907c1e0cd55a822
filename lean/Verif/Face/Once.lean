import Verif.Face.Lemmas
/-
The invariant of the outcomes of pending Interests, for histories in which no callback throws (C47).
-/
namespace Ndn.Face
open Spec
open scoped List
variable {I D : Type} {E : Env I D}

@[simp] theorem outcomes_nil (id : Nat) : outcomes id ([] : List (Obs I D)) = 0 := rfl
@[simp] theorem outcomes_append (id : Nat) (a b : List (Obs I D)) :
    outcomes id (a ++ b) = outcomes id a + outcomes id b := List.countP_append
theorem outcomes_cons (id : Nat) (o : Obs I D) (l : List (Obs I D)) :
    outcomes id (o :: l) = (if outcome id o then 1 else 0) + outcomes id l := by
  unfold outcomes; rw [List.countP_cons]; omega

/-! ### The loops without exceptions -/

/-- What becomes of an entry when a Data is processed. -/
def keepD (E : Env I D) (d : D) (e : Entry I) : Option (Entry I) :=
  if E.matchesData e.interest d then none else some e

/-- The callback invoked for an entry when a Data is processed. -/
def obsD (E : Env I D) (d : D) (e : Entry I) : List (Obs I D) :=
  if E.matchesData e.interest d && e.app then [.data e.id e.interest d] else []

theorem satisfy_calm (d : D) {boom : Nat → Bool} (hb : ∀ x, boom x = false) (es : List (Entry I)) :
    satisfy E d boom es = ⟨es.filterMap (keepD E d), es.flatMap (obsD E d),
      es.any (fun e => E.matchesData e.interest d && e.app),
      es.any (fun e => E.matchesData e.interest d && !e.app), none, false⟩ := by
  induction es with
  | nil => rfl
  | cons e es ih =>
    simp only [satisfy]
    rw [ih]
    by_cases hm : E.matchesData e.interest d = true
    · by_cases ha : e.app = true
      · simp [hm, ha, hb, keepD, obsD]
      · simp [hm, ha, keepD, obsD]
    · simp [hm, keepD, obsD]

def keepN (E : Env I D) (n : Nack I) (e : Entry I) : Option (Entry I) :=
  if E.matchesInterest n.interest e.interest then
    match (recordNack e n).2.1 with
    | none => some (recordNack e n).1
    | some _ => none
  else some e

def obsN (E : Env I D) (n : Nack I) (e : Entry I) : List (Obs I D) :=
  if E.matchesInterest n.interest e.interest then
    countObs (recordNack e n).2.2 ++
      match (recordNack e n).2.1 with
      | none => []
      | some m => if e.app then [.nack e.id e.interest m] else []
  else []

theorem nackLoop_calm (n : Nack I) {boom : Nat → Bool} (hb : ∀ x, boom x = false) (es : List (Entry I)) :
    (nackLoop (D := D) E n boom es).pit = es.filterMap (keepN E n) ∧
    (nackLoop (D := D) E n boom es).log = es.flatMap (obsN E n) ∧
    (nackLoop (D := D) E n boom es).threw = false := by
  induction es with
  | nil => exact ⟨rfl, rfl, rfl⟩
  | cons e es ih =>
    obtain ⟨h1, h2, h3⟩ := ih
    simp only [nackLoop]
    by_cases hm : E.matchesInterest n.interest e.interest = true
    · rw [if_neg (by simp [hm])]
      cases hr : (recordNack e n).2.1 with
      | none => simp [h1, h2, h3, hm, hr, keepN, obsN]
      | some m =>
        by_cases ha : e.app = true
        · simp [h1, h2, h3, hm, hr, ha, hb, keepN, obsN]
        · simp [h1, h2, h3, hm, hr, ha, keepN, obsN]
    · rw [if_pos (by simp [hm])]
      simp [h1, h2, h3, hm, keepN, obsN]

/-! ### Effects of a step -/

structure Eff (s s' : St I D) (δ : List (Obs I D)) : Prop where
  log : s'.log = s.log ++ δ
  keep : ∀ e' ∈ s'.pit,
    ((∃ e ∈ s.pit, core e = core e' ∧ e.armed = e'.armed) ∨
      (e'.armed = true ∧ e'.id ∉ creIds s.log ∧ e'.id ∈ creIds δ)) ∧
    outcomes e'.id δ = 0 ∧ δ.any (isCancelled e'.id) = false ∧ δ.any isCleared = false
  one : ∀ id, outcomes id δ ≤ 1
  out : ∀ id, 0 < outcomes id δ → (∃ e ∈ s.pit, e.id = id) ∧ δ.any (isCancelled id) = false ∧ δ.any isCleared = false
  gone : ∀ e ∈ s.pit, e.app = true → (∃ e' ∈ s'.pit, e'.id = e.id) ∨ outcomes e.id δ = 1 ∨
    δ.any (isCancelled e.id) = true ∨ δ.any isCleared = true
  cre : ∀ id i t, Obs.expressed id i t ∈ δ → ∃ e' ∈ s'.pit, e'.id = id
  can : ∀ id, δ.any (isCancelled id) = true → id ∈ creIds s.log

/-- Observations that matter to no pending Interest. -/
def inert : Obs I D → Bool
  | .expressed _ _ _ | .arrived _ _ _ | .cancelled _ | .cleared | .data _ _ _ | .nack _ _ _ | .timeout _ _ _ => false
  | _ => true

theorem inert_outcomes {l : List (Obs I D)} (h : ∀ o ∈ l, inert o = true) (id : Nat) : outcomes id l = 0 := by
  unfold outcomes
  rw [List.countP_eq_zero]
  intro o ho
  have := h o ho
  cases o <;> simp_all [inert, outcome]

theorem inert_cancelled {l : List (Obs I D)} (h : ∀ o ∈ l, inert o = true) (id : Nat) :
    l.any (isCancelled id) = false := by
  rw [List.any_eq_false]
  intro o ho
  have := h o ho
  cases o <;> simp_all [inert, isCancelled]

theorem inert_cleared {l : List (Obs I D)} (h : ∀ o ∈ l, inert o = true) : l.any isCleared = false := by
  rw [List.any_eq_false]
  intro o ho
  have := h o ho
  cases o <;> simp_all [inert, isCleared]

theorem eff_inert {s s' : St I D} {δ : List (Obs I D)} (hl : s'.log = s.log ++ δ)
    (hδ : ∀ o ∈ δ, inert o = true) (hp : s'.pit = s.pit) : Eff s s' δ := by
  have h1 := inert_outcomes hδ
  have h2 := inert_cancelled hδ
  have h3 := inert_cleared hδ
  refine ⟨hl, ?_, ?_, ?_, ?_, ?_, ?_⟩
  · intro e' he'
    rw [hp] at he'
    exact ⟨Or.inl ⟨e', he', rfl, rfl⟩, h1 _, h2 _, h3⟩
  · intro id; rw [h1]; omega
  · intro id h; rw [h1] at h; omega
  · intro e he _; rw [hp]; exact Or.inl ⟨e, he, rfl⟩
  · intro id i t h; have := hδ _ h; simp [inert] at this
  · intro id h; rw [h2] at h; simp at h

theorem ok_not_cancelled {id x : Nat} {o : Obs I D} (h : inert o = true ∨ outcome id o = true) :
    isCancelled x o = false := by
  cases o <;> simp [inert, outcome] at h <;> rfl

theorem ok_not_cleared {id : Nat} {o : Obs I D} (h : inert o = true ∨ outcome id o = true) :
    isCleared o = false := by
  cases o <;> simp [inert, outcome] at h <;> rfl

theorem ok_not_other {id x : Nat} {o : Obs I D} (h : inert o = true ∨ outcome id o = true) (hne : id ≠ x) :
    outcome x o = false := by
  cases o <;> simp [inert, outcome] at h ⊢ <;> omega

theorem eq_of_sorted {es : List (Entry I)} (hs : (es.map Entry.id).Pairwise (· < ·)) {x y : Entry I}
    (hx : x ∈ es) (hy : y ∈ es) (h : x.id = y.id) : x = y := by
  induction es with
  | nil => simp at hx
  | cons e es ih =>
    rw [List.map_cons, List.pairwise_cons] at hs
    rcases List.mem_cons.1 hx with hx | hx <;> rcases List.mem_cons.1 hy with hy | hy
    · rw [hx, hy]
    · have := hs.1 _ (List.mem_map_of_mem hy); rw [hx] at h; omega
    · have := hs.1 _ (List.mem_map_of_mem hx); rw [hy] at h; omega
    · exact ih hs.2 hx hy

theorem flatMap_single {α : Type} {es : List (Entry I)} (hs : (es.map Entry.id).Pairwise (· < ·)) {e : Entry I}
    (he : e ∈ es) (g : Entry I → List α) (hg : ∀ x, x.id ≠ e.id → g x = []) : es.flatMap g = g e := by
  induction es with
  | nil => simp at he
  | cons x es ih =>
    rw [List.map_cons, List.pairwise_cons] at hs
    rw [List.flatMap_cons]
    by_cases hx : x.id = e.id
    · have : x = e := eq_of_sorted (es := x :: es) (by rw [List.map_cons, List.pairwise_cons]; exact hs) (by simp) he hx
      subst this
      have : es.flatMap g = [] := by
        rw [List.flatMap_eq_nil_iff]
        intro y hy
        apply hg
        have := hs.1 _ (List.mem_map_of_mem hy)
        omega
      rw [this, List.append_nil]
    · rw [hg x hx, List.nil_append]
      exact ih hs.2 (by
        rcases List.mem_cons.1 he with h | h
        · subst h; exact absurd rfl hx
        · exact h)

/-- The outcomes of a loop over entries. -/
theorem outcomes_flatMap (g : Entry I → List (Obs I D)) (id : Nat) (es : List (Entry I))
    (hs : (es.map Entry.id).Pairwise (· < ·)) (hg : ∀ e ∈ es, e.id ≠ id → outcomes id (g e) = 0)
    (h1 : ∀ e ∈ es, outcomes id (g e) ≤ 1) :
    outcomes id (es.flatMap g) ≤ 1 ∧
    (0 < outcomes id (es.flatMap g) → ∃ e ∈ es, e.id = id ∧ outcomes id (g e) = 1) ∧
    (∀ e ∈ es, e.id = id → outcomes id (es.flatMap g) = outcomes id (g e)) := by
  induction es with
  | nil => simp
  | cons e es ih =>
    rw [List.map_cons, List.pairwise_cons] at hs
    obtain ⟨a, b, c⟩ := ih hs.2 (fun x hx => hg x (by simp [hx])) (fun x hx => h1 x (by simp [hx]))
    rw [List.flatMap_cons, outcomes_append]
    have he1 := h1 e (by simp)
    by_cases hi : e.id = id
    · have hz : outcomes id (es.flatMap g) = 0 := by
        apply Nat.eq_zero_of_not_pos
        intro hp
        obtain ⟨x, hx, hxi, _⟩ := b hp
        have := hs.1 _ (List.mem_map_of_mem hx)
        omega
      rw [hz]
      refine ⟨by omega, fun h => ⟨e, by simp, hi, by omega⟩, ?_⟩
      intro x hx hxi
      rcases List.mem_cons.1 hx with rfl | hx
      · omega
      · have := hs.1 _ (List.mem_map_of_mem hx)
        omega
    · rw [hg e (by simp) hi]
      refine ⟨by omega, ?_, ?_⟩
      · intro h
        obtain ⟨x, hx, h'⟩ := b (by omega)
        exact ⟨x, by simp [hx], h'⟩
      · intro x hx hxi
        rcases List.mem_cons.1 hx with rfl | hx
        · exact absurd hxi hi
        · rw [c x hx hxi]; omega

/-- A loop that decides for each entry, with at most its own callback. -/
theorem eff_loop {s s' : St I D} (hA : InvA E s) (k : Entry I → Option (Entry I)) (g : Entry I → List (Obs I D))
    (δ₁ δ₂ : List (Obs I D)) (hl : s'.log = s.log ++ (δ₁ ++ s.pit.flatMap g ++ δ₂))
    (h1 : ∀ o ∈ δ₁, inert o = true) (h2 : ∀ o ∈ δ₂, inert o = true)
    (hp : s'.pit = s.pit.filterMap k)
    (hk : ∀ e e', k e = some e' → core e = core e' ∧ e.armed = e'.armed)
    (hg : ∀ e, ∀ o ∈ g e, inert o = true ∨ (outcome e.id o = true))
    (hg1 : ∀ e ∈ s.pit, outcomes e.id (g e) = if e.app && (k e).isNone then 1 else 0) :
    Eff s s' (δ₁ ++ s.pit.flatMap g ++ δ₂) := by
  have hcan : ∀ id, (δ₁ ++ s.pit.flatMap g ++ δ₂).any (isCancelled id) = false := by
    intro id
    rw [List.any_append, List.any_append, inert_cancelled h1, inert_cancelled h2]
    simp only [Bool.false_or, Bool.or_false, List.any_eq_false]
    intro o ho
    obtain ⟨e, _, he⟩ := List.mem_flatMap.1 ho
    rw [ok_not_cancelled (hg e o he)]; simp
  have hclr : (δ₁ ++ s.pit.flatMap g ++ δ₂).any isCleared = false := by
    rw [List.any_append, List.any_append, inert_cleared h1, inert_cleared h2]
    simp only [Bool.false_or, Bool.or_false, List.any_eq_false]
    intro o ho
    obtain ⟨e, _, he⟩ := List.mem_flatMap.1 ho
    rw [ok_not_cleared (hg e o he)]; simp
  have hout : ∀ id, outcomes id (δ₁ ++ s.pit.flatMap g ++ δ₂) = outcomes id (s.pit.flatMap g) := by
    intro id
    rw [outcomes_append, outcomes_append, inert_outcomes h1, inert_outcomes h2]; omega
  have hother : ∀ id, ∀ e ∈ s.pit, e.id ≠ id → outcomes id (g e) = 0 := by
    intro id e _ hne
    unfold outcomes
    rw [List.countP_eq_zero]
    intro o ho
    rw [ok_not_other (hg e o ho) hne]; simp
  have hle : ∀ id, ∀ e ∈ s.pit, outcomes id (g e) ≤ 1 := by
    intro id e he
    by_cases hi : e.id = id
    · rw [← hi, hg1 e he]; split <;> omega
    · rw [hother id e he hi]; omega
  have F := fun id => outcomes_flatMap g id s.pit hA.sorted (hother id) (hle id)
  refine ⟨hl, ?_, ?_, ?_, ?_, ?_, ?_⟩
  · intro e' he'
    rw [hp] at he'
    obtain ⟨e, he, hke⟩ := List.mem_filterMap.1 he'
    obtain ⟨c1, c2⟩ := hk e e' hke
    have ci : e.id = e'.id := by simp only [core, Prod.mk.injEq] at c1; exact c1.1
    refine ⟨Or.inl ⟨e, he, c1, c2⟩, ?_, hcan _, hclr⟩
    rw [hout, ← ci, (F e.id).2.2 e he rfl, hg1 e he, hke]
    simp
  · intro id; rw [hout]; exact (F id).1
  · intro id h
    rw [hout] at h
    obtain ⟨e, he, hi, _⟩ := (F id).2.1 h
    exact ⟨⟨e, he, hi⟩, hcan _, hclr⟩
  · intro e he ha
    cases hke : k e with
    | some e' =>
      obtain ⟨c1, _⟩ := hk e e' hke
      simp only [core, Prod.mk.injEq] at c1
      exact Or.inl ⟨e', by rw [hp]; exact List.mem_filterMap.2 ⟨e, he, hke⟩, c1.1.symm⟩
    | none =>
      right; left
      rw [hout, (F e.id).2.2 e he rfl, hg1 e he, hke, ha]
      rfl
  · intro id i t h
    exfalso
    rcases List.mem_append.1 h with h | h
    · rcases List.mem_append.1 h with h | h
      · have := h1 _ h; simp [inert] at this
      · obtain ⟨e, _, he⟩ := List.mem_flatMap.1 h
        rcases hg e _ he with h | h <;> simp [inert, outcome] at h
    · have := h2 _ h; simp [inert] at this
  · intro id h
    rw [hcan] at h; simp at h

theorem keepD_ok (d : D) (e e' : Entry I) (h : keepD E d e = some e') : core e = core e' ∧ e.armed = e'.armed := by
  unfold keepD at h
  split at h
  · simp at h
  · simp at h; subst h; exact ⟨rfl, rfl⟩

theorem obsD_ok (d : D) (e : Entry I) : ∀ o ∈ obsD E d e, inert o = true ∨ outcome e.id o = true := by
  intro o ho
  unfold obsD at ho
  split at ho
  · simp at ho; subst ho; right; simp [outcome]
  · simp at ho

theorem obsD_one (d : D) (e : Entry I) :
    outcomes e.id (obsD E d e) = if e.app && (keepD E d e).isNone then 1 else 0 := by
  unfold obsD keepD
  cases E.matchesData e.interest d <;> cases e.app <;> simp [outcomes, outcome]

theorem keepN_ok (n : Nack I) (e e' : Entry I) (h : keepN E n e = some e') : core e = core e' ∧ e.armed = e'.armed := by
  unfold keepN at h
  split at h
  · split at h
    · simp at h; subst h; exact ⟨(recordNack_core e n).symm, (recordNack_armed e n).symm⟩
    · simp at h
  · simp at h; subst h; exact ⟨rfl, rfl⟩

theorem inert_count (b : Bool) : ∀ o ∈ (countObs b : List (Obs I D)), inert o = true := by
  cases b <;> simp [countObs, inert]

theorem inert_dup (b : Bool) : ∀ o ∈ (dupObs b : List (Obs I D)), inert o = true := by
  cases b <;> simp [dupObs, inert]

theorem obsN_ok (n : Nack I) (e : Entry I) : ∀ o ∈ obsN E n e, inert o = true ∨ outcome e.id o = true := by
  intro o ho
  unfold obsN at ho
  split at ho
  · rcases List.mem_append.1 ho with ho | ho
    · exact Or.inl (inert_count _ _ ho)
    · split at ho
      · simp at ho
      · split at ho
        · simp at ho; subst ho; right; simp [outcome]
        · simp at ho
  · simp at ho

theorem obsN_one (n : Nack I) (e : Entry I) :
    outcomes e.id (obsN E n e) = if e.app && (keepN E n e).isNone then 1 else 0 := by
  unfold obsN keepN
  cases E.matchesInterest n.interest e.interest with
  | false => simp
  | true =>
    simp only [if_true, outcomes_append, inert_outcomes (inert_count _)]
    cases (recordNack e n).2.1 with
    | none => simp
    | some m => cases e.app <;> simp [outcomes, outcome]

theorem inert_dispatch (boom : Nat → Bool) (e : Entry I) (fs : List (Nat × Filter)) :
    ∀ o ∈ (dispatch (D := D) E boom e fs).2, inert o = true := by
  intro o ho
  obtain ⟨_, _, _, rfl⟩ := dispatch_log boom e fs o ho
  rfl

theorem pit_ids_created {s : St I D} (h : InvA E s) {e : Entry I} (he : e ∈ s.pit) : e.id ∈ creIds s.log := by
  obtain ⟨t, _, hc, _⟩ := h.cre e he
  unfold creIds
  rw [List.mem_filterMap]
  refine ⟨_, hc, ?_⟩
  unfold creation
  cases e.app <;> rfl

/-- Making a record. -/
theorem eff_create {s s' : St I D} (hA : InvA E s) (e : Entry I) (c : Obs I D) (δ : List (Obs I D))
    (hl : s'.log = s.log ++ c :: δ) (hδ : ∀ o ∈ δ, inert o = true)
    (hc : (∃ i t, c = .expressed e.id i t) ∨ (∃ i t, c = .arrived e.id i t))
    (ha : e.armed = true) (hf : e.id ∉ creIds s.log)
    (hp : s'.pit = (putEntry e s.pit).1) : Eff s s' (c :: δ) := by
  have hne : ∀ x ∈ s.pit, x.id ≠ e.id := by
    intro x hx hh
    exact hf (hh ▸ pit_ids_created hA hx)
  obtain ⟨_, hperm⟩ := putEntry_fresh e s.pit hne
  have o0 : ∀ id, outcomes id (c :: δ) = 0 := by
    intro id
    rw [outcomes_cons, inert_outcomes hδ]
    rcases hc with ⟨i, t, rfl⟩ | ⟨i, t, rfl⟩ <;> simp [outcome]
  have k0 : ∀ id, (c :: δ).any (isCancelled id) = false := by
    intro id
    rw [List.any_cons, inert_cancelled hδ]
    rcases hc with ⟨i, t, rfl⟩ | ⟨i, t, rfl⟩ <;> simp [isCancelled]
  have l0 : (c :: δ).any isCleared = false := by
    rw [List.any_cons, inert_cleared hδ]
    rcases hc with ⟨i, t, rfl⟩ | ⟨i, t, rfl⟩ <;> simp [isCleared]
  have hcr : e.id ∈ creIds (c :: δ) := by
    rcases hc with ⟨i, t, rfl⟩ | ⟨i, t, rfl⟩ <;> simp [creIds]
  refine ⟨hl, ?_, ?_, ?_, ?_, ?_, ?_⟩
  · intro e' he'
    rw [hp] at he'
    refine ⟨?_, o0 _, k0 _, l0⟩
    rcases putEntry_mem_id he' with rfl | h
    · exact Or.inr ⟨ha, hf, hcr⟩
    · exact Or.inl ⟨e', h, rfl, rfl⟩
  · intro id; rw [o0]; omega
  · intro id h; rw [o0] at h; omega
  · intro x hx _
    exact Or.inl ⟨x, by rw [hp]; exact hperm.symm.subset (by simp [hx]), rfl⟩
  · intro id i t h
    rcases List.mem_cons.1 h with h | h
    · have : id = e.id := by
        rcases hc with ⟨i', t', rfl⟩ | ⟨i', t', rfl⟩ <;> simp at h
        exact h.1
      subst this
      exact ⟨e, by rw [hp]; exact hperm.symm.subset (by simp), rfl⟩
    · have := hδ _ h; simp [inert] at this
  · intro id h; rw [k0] at h; simp at h

/-- Clearing the table. -/
theorem eff_clear {s s' : St I D} (hl : s'.log = s.log ++ [.cleared]) (hp : s'.pit = []) : Eff s s' [.cleared] := by
  refine ⟨hl, ?_, ?_, ?_, ?_, ?_, ?_⟩
  · intro e' he'; rw [hp] at he'; simp at he'
  · intro id; simp [outcomes, outcome]
  · intro id h; simp [outcomes, outcome] at h
  · intro e _ _; right; right; right; rfl
  · intro id i t h; simp at h
  · intro id h; simp [isCancelled] at h

theorem eff_handle {s : St I D} (hA : InvA E s) {boom : Nat → Bool} (hb : ∀ x, boom x = false) (p : Post I D)
    (ps : List (Post I D)) (hq : s.queue = p :: ps) :
    ∃ δ, Eff s (handle E boom { s with queue := ps } p) δ := by
  cases p with
  | express id i =>
    obtain ⟨e, δ, hs, hc, ha, _, hd⟩ := doExpress_shape (E := E) boom { s with queue := ps } id i
    simp only [core, Prod.mk.injEq] at hc
    refine ⟨_, eff_create hA e (.expressed id i s.now) δ ?_ ?_ (Or.inl ⟨i, s.now, by rw [hc.1]⟩) ha ?_ ?_⟩
    · simp only [handle]; rw [hs]
    · rcases hd with ⟨_, _, rfl⟩ | ⟨_, _, rfl⟩
      · intro o ho
        rcases List.mem_append.1 ho with ho | ho
        · exact inert_dup _ _ ho
        · simp at ho; subst ho; rfl
      · intro o ho
        rcases List.mem_append.1 ho with ho | ho
        · exact inert_dup _ _ ho
        · rcases List.mem_cons.1 ho with ho | ho
          · subst ho; rfl
          · exact inert_dispatch _ _ _ _ ho
    · have := hA.nodup
      rw [hq, List.nodup_append] at this
      rw [hc.1]
      intro hh
      exact this.2.2 id hh id (by simp [qIds]) rfl
    · simp only [handle]; rw [hs]
  | cancel id =>
    refine ⟨[.cancelled id], rfl, ?_, ?_, ?_, ?_, ?_, ?_⟩
    · intro e' he'
      simp only [handle, List.mem_filter] at he'
      refine ⟨Or.inl ⟨e', he'.1, rfl, rfl⟩, by simp [outcomes, outcome], ?_, rfl⟩
      have := he'.2
      simp only [List.any_cons, isCancelled, List.any_nil, Bool.or_false, beq_eq_false_iff_ne]
      simp at this
      exact fun h => this h.symm
    · intro id'; simp [outcomes, outcome]
    · intro id' h; simp [outcomes, outcome] at h
    · intro e he _
      by_cases hi : e.id = id
      · right; right; left; simp [isCancelled, hi]
      · left; exact ⟨e, by simp [handle, he, hi], rfl⟩
    · intro id' i t h; simp at h
    · intro id' h
      have hid : id = id' := by simpa [isCancelled] using h
      obtain ⟨h1, h2⟩ := hA.fifo [] ps id (by simpa using hq)
      have := hA.hand id h2
      rw [hq] at this
      have q0 : qIds (Post.cancel id :: ps : List (Post I D)) = qIds ps := by simp [qIds]
      rw [q0] at this
      rcases List.mem_append.1 this with h | h
      · rw [← hid]; exact h
      · exact absurd h h1
  | removeAll => exact ⟨_, eff_clear rfl rfl⟩
  | putData d =>
    obtain ⟨δ, hs, hd⟩ := doPutData_shape (E := E) boom { s with queue := ps } d
    have hc := satisfy_calm (E := E) d hb s.pit
    refine ⟨_, eff_loop hA (keepD E d) (obsD E d) [.putData d] δ ?_ (by simp [inert]) ?_ ?_ (keepD_ok d) (obsD_ok d) (fun e _ => obsD_one d e)⟩
    · simp only [handle]; rw [hs]; simp [hc]
    · rcases hd with rfl | rfl | rfl <;> simp [inert]
    · simp only [handle]; rw [hs]; simp [hc]
  | putNack n =>
    obtain ⟨δ, hs, hd⟩ := doPutNack_shape (E := E) boom { s with queue := ps } n
    obtain ⟨c1, c2, _⟩ := nackLoop_calm (E := E) (D := D) n hb s.pit
    refine ⟨_, eff_loop hA (keepN E n) (obsN E n) [.putNack n] δ ?_ (by simp [inert]) ?_ ?_ (keepN_ok n) (obsN_ok n) (fun e _ => obsN_one n e)⟩
    · simp only [handle]; rw [hs]; simp [c2]
    · rcases hd with rfl | rfl | ⟨m, rfl⟩ <;> simp [inert]
    · simp only [handle]; rw [hs]; simp [c1]
  | setFilter fid f =>
    refine ⟨_, eff_inert (δ := .filterSet fid f :: dupObs (putFilter fid f s.filters).2) rfl ?_ rfl⟩
    intro o ho
    rcases List.mem_cons.1 ho with ho | ho
    · subst ho; rfl
    · exact inert_dup _ _ ho
  | unsetFilter fid => exact ⟨_, eff_inert (δ := [.filterUnset fid]) rfl (by simp [inert]) rfl⟩
  | unregister id =>
    obtain ⟨δ, fs, cs, hs, hd⟩ := doUnregister_shape { s with queue := ps } id
    refine ⟨δ, eff_inert (by simp only [handle]; rw [hs]) ?_ (by simp only [handle]; rw [hs])⟩
    rcases hd with ⟨rfl, _⟩ | ⟨r, _, _, _, ⟨_, rfl, _⟩ | ⟨_, rfl, _⟩⟩ <;> simp [inert]
  | shutdown => exact ⟨_, eff_clear rfl rfl⟩

theorem eff_fire {s : St I D} (hA : InvA E s) {boom : Nat → Bool} (hb : ∀ x, boom x = false) (id : Nat) :
    ∃ δ, Eff s (doFire boom s id) δ := by
  simp only [doFire]
  split
  · exact ⟨[], eff_inert (by simp) (by simp) rfl⟩
  · rename_i e he
    have hm := List.mem_of_find?_eq_some he
    have hi : e.id = id ∧ e.armed = true ∧ e.expiry ≤ s.now := by
      have := List.find?_some he
      simp at this
      exact ⟨this.1.1, this.1.2, this.2⟩
    refine ⟨_, eff_loop hA (fun x => if x.id = id then none else some x)
      (fun x => if x.id = id ∧ x.app = true then [.timeout id x.interest s.now] else []) [] [] ?_ (by simp) (by simp) ?_ ?_ ?_ ?_⟩
    · have : s.pit.flatMap (fun x => if x.id = id ∧ x.app = true then [Obs.timeout (D := D) id x.interest s.now] else []) =
          if e.app then [.timeout id e.interest s.now] else [] := by
        rw [flatMap_single hA.sorted hm]
        · simp [hi.1]
        · intro x hx
          rw [if_neg]
          intro h; exact hx (by rw [h.1, hi.1])
      simp only [List.nil_append, List.append_nil, this, hb]
      split <;> simp
    · have : s.pit.filterMap (fun x => if x.id = id then none else some x) = s.pit.filter (fun x => x.id != id) := by
        rw [← List.filterMap_eq_filter]
        congr 1
        funext x
        by_cases hx : x.id = id <;> simp [hx, Option.guard]
      rw [this]
      simp only [hb]
      split <;> simp
    · intro x x' h
      split at h
      · simp at h
      · simp at h; subst h; exact ⟨rfl, rfl⟩
    · intro x o ho
      split at ho
      · rename_i hx
        simp at ho; subst ho; right; simp [outcome, hx.1]
      · simp at ho
    · intro x _
      by_cases hx : x.id = id <;> cases x.app <;> simp [hx, outcomes, outcome]

theorem eff_step {s : St I D} (hA : InvA E s) (op : Op I D) (hc : Calm op) : ∃ δ, Eff s (step E s op) δ := by
  cases op with
  | express i => exact ⟨_, eff_inert (δ := [.callExpress (s.lastPit + 1) i]) rfl (by simp [inert]) rfl⟩
  | cancel id =>
    simp only [step]
    split
    · exact ⟨_, eff_inert (δ := [.callCancel id]) rfl (by simp [inert]) rfl⟩
    · exact ⟨[], eff_inert (by simp) (by simp) rfl⟩
  | removeAll => exact ⟨[], eff_inert (by simp [step]) (by simp) rfl⟩
  | putData d => exact ⟨[], eff_inert (by simp [step]) (by simp) rfl⟩
  | putNack n => exact ⟨[], eff_inert (by simp [step]) (by simp) rfl⟩
  | setFilter f => exact ⟨[], eff_inert (by simp [step]) (by simp) rfl⟩
  | unsetFilter fid =>
    simp only [step]
    split
    · exact ⟨_, eff_inert (δ := [.callUnset fid]) rfl (by simp [inert]) rfl⟩
    · exact ⟨[], eff_inert (by simp) (by simp) rfl⟩
  | register pfx f => exact ⟨_, eff_inert (δ := [.callRegister (s.lastReg + 1)]) rfl (by simp [inert]) rfl⟩
  | unregister id =>
    simp only [step]
    split
    · exact ⟨_, eff_inert (δ := [.callUnregister id]) rfl (by simp [inert]) rfl⟩
    · exact ⟨[], eff_inert (by simp) (by simp) rfl⟩
  | shutdown => exact ⟨[], eff_inert (by simp [step]) (by simp) rfl⟩
  | run boom =>
    simp only [step]
    split
    · exact ⟨[], eff_inert (by simp) (by simp) rfl⟩
    · rename_i p ps hq
      exact eff_handle hA hc p ps hq
  | fire id boom => exact eff_fire hA hc id
  | recvInterest i boom =>
    obtain ⟨e, δ, hs, hcore, ha, _, _, hd⟩ := doArrive_shape (E := E) boom s i
    simp only [core, Prod.mk.injEq] at hcore
    refine ⟨_, eff_create hA e (.arrived (s.lastPit + 1) i s.now) δ ?_ ?_ (Or.inr ⟨i, s.now, by rw [hcore.1]⟩) ha ?_ ?_⟩
    · simp only [step]; rw [hs]
    · subst hd
      intro o ho
      rcases List.mem_append.1 ho with ho | ho
      · exact inert_dup _ _ ho
      · exact inert_dispatch _ _ _ _ ho
    · rw [hcore.1]
      intro hh
      have := hA.le (s.lastPit + 1) (by simp [hh])
      omega
    · simp only [step]; rw [hs]
  | recvData d boom =>
    have h := satisfy_calm (E := E) d hc s.pit
    refine ⟨_, eff_loop hA (keepD E d) (obsD E d) [.gotData d] [] ?_ (by simp [inert]) (by simp) ?_ (keepD_ok d) (obsD_ok d) (fun e _ => obsD_one d e)⟩
    · simp [step, h]
    · simp [step, h]
  | recvNack n boom =>
    obtain ⟨c1, c2, _⟩ := nackLoop_calm (E := E) (D := D) n hc s.pit
    refine ⟨_, eff_loop hA (keepN E n) (obsN E n) [.gotNack n] [] ?_ (by simp [inert]) (by simp) ?_ (keepN_ok n) (obsN_ok n) (fun e _ => obsN_one n e)⟩
    · simp [step, c2]
    · simp [step, c1]
  | reply k ok =>
    simp only [step, doReply]
    split
    · exact ⟨[], eff_inert (by simp) (by simp) rfl⟩
    · split
      · split
        · exact ⟨_, eff_inert rfl (by simp [inert]) rfl⟩
        · refine ⟨_, eff_inert (by simp only [List.append_assoc, List.cons_append]; rfl) ?_ rfl⟩
          intro o ho
          simp only [List.mem_cons, List.mem_append] at ho
          rcases ho with rfl | ho | ho | ho
          · rfl
          · exact inert_dup _ _ ho
          · subst ho; rfl
          · simp at ho
      · exact ⟨_, eff_inert rfl (by simp [inert]) rfl⟩
    · split
      · exact ⟨_, eff_inert rfl (by simp [inert]) rfl⟩
      · exact ⟨_, eff_inert rfl (by simp [inert]) rfl⟩
  | advance dt => exact ⟨[], eff_inert (by simp [step]) (by simp) rfl⟩
  | unwind => exact ⟨_, eff_clear rfl rfl⟩

/-! ### The invariant -/

theorem mem_creIds_iff (id : Nat) (l : List (Obs I D)) : id ∈ creIds l ↔ ∃ o ∈ l, creates id o = true := by
  unfold creIds
  rw [List.mem_filterMap]
  constructor
  · rintro ⟨o, ho, h⟩
    refine ⟨o, ho, ?_⟩
    cases o <;> simp_all [creates]
  · rintro ⟨o, ho, h⟩
    refine ⟨o, ho, ?_⟩
    cases o <;> simp_all [creates]

theorem since_append_old {id : Nat} {a : List (Obs I D)} (b : List (Obs I D)) (h : id ∈ creIds a) :
    since id (a ++ b) = since id a ++ b := by
  unfold since
  obtain ⟨o, ho, hc⟩ := (mem_creIds_iff id a).1 h
  induction a with
  | nil => simp at ho
  | cons x a ih =>
    rw [List.cons_append, List.dropWhile_cons, List.dropWhile_cons]
    by_cases hx : creates id x = true
    · simp [hx]
    · simp only [hx, Bool.not_false, if_true]
      rcases List.mem_cons.1 ho with h' | h'
      · subst h'; exact absurd hc hx
      · exact ih ((mem_creIds_iff id a).2 ⟨o, h', hc⟩) h'

theorem since_append_new {id : Nat} {a : List (Obs I D)} (b : List (Obs I D)) (h : id ∉ creIds a) :
    since id (a ++ b) = since id b := by
  unfold since
  induction a with
  | nil => rfl
  | cons x a ih =>
    have hx : creates id x = false := by
      cases hh : creates id x with
      | false => rfl
      | true => exact absurd ((mem_creIds_iff id _).2 ⟨x, by simp, hh⟩) h
    rw [List.cons_append, List.dropWhile_cons]
    simp only [hx, Bool.not_false, if_true]
    apply ih
    intro hh
    obtain ⟨o, ho, hc⟩ := (mem_creIds_iff id a).1 hh
    exact h ((mem_creIds_iff id _).2 ⟨o, by simp [ho], hc⟩)

theorem since_sub (id : Nat) (a : List (Obs I D)) : ∀ o ∈ since id a, o ∈ a :=
  fun _ ho => (List.dropWhile_sublist _).subset ho

theorem any_false_sub {p : Obs I D → Bool} {a b : List (Obs I D)} (h : b.any p = false) (hs : ∀ o ∈ a, o ∈ b) :
    a.any p = false := by
  rw [List.any_eq_false] at h ⊢
  exact fun o ho => h o (hs o ho)

structure InvB (s : St I D) : Prop where
  zero : ∀ e ∈ s.pit, e.armed = true ∧ outcomes e.id s.log = 0 ∧ s.log.any (isCancelled e.id) = false ∧
    (since e.id s.log).any isCleared = false
  one : ∀ id, outcomes id s.log ≤ 1
  fresh : ∀ id, id ∉ creIds s.log → outcomes id s.log = 0 ∧ s.log.any (isCancelled id) = false
  res : ∀ id i t, Obs.expressed id i t ∈ s.log → (∃ e ∈ s.pit, e.id = id) ∨ outcomes id s.log = 1 ∨
    s.log.any (isCancelled id) = true ∨ (since id s.log).any isCleared = true
  after : ∀ pre post id, s.log = pre ++ .cancelled id :: post → outcomes id post = 0
  afterClear : ∀ pre post, s.log = pre ++ .cleared :: post → ∀ id ∈ creIds pre, outcomes id post = 0

theorem invB_init : InvB ({} : St I D) := by
  constructor <;> simp

theorem invB_eff {s s' : St I D} {δ : List (Obs I D)} (hA : InvA E s) (hB : InvB s) (h : Eff s s' δ)
    (hA' : InvA E s') : InvB s' := by
  have hcz : ∀ id, 0 < outcomes id δ → outcomes id s.log = 0 ∧ s.log.any (isCancelled id) = false ∧
      (since id s.log).any isCleared = false ∧ id ∈ creIds s.log := by
    intro id hp
    obtain ⟨⟨e, he, hi⟩, _⟩ := h.out id hp
    have := hB.zero e he
    rw [hi] at this
    exact ⟨this.2.1, this.2.2.1, this.2.2.2, hi ▸ pit_ids_created hA he⟩
  refine ⟨?_, ?_, ?_, ?_, ?_, ?_⟩
  · intro e' he'
    obtain ⟨hk, h1, h2, h3⟩ := h.keep e' he'
    rw [h.log, outcomes_append, List.any_append, h1, h2]
    rcases hk with ⟨e, he, hc, ha⟩ | ⟨ha, hf, hcr⟩
    · have ci : e.id = e'.id := by simp only [core, Prod.mk.injEq] at hc; exact hc.1
      obtain ⟨z1, z2, z3, z4⟩ := hB.zero e he
      rw [ci] at z2 z3 z4
      rw [since_append_old δ (ci ▸ pit_ids_created hA he), List.any_append, h3, z3, z4]
      exact ⟨by rw [← ha]; exact z1, by omega, rfl, rfl⟩
    · obtain ⟨f1, f2⟩ := hB.fresh e'.id hf
      rw [since_append_new δ hf, f1, f2]
      exact ⟨ha, rfl, rfl, any_false_sub h3 (since_sub _ _)⟩
  · intro id
    rw [h.log, outcomes_append]
    by_cases hp : 0 < outcomes id δ
    · rw [(hcz id hp).1]; have := h.one id; omega
    · have := hB.one id; omega
  · intro id hid
    rw [h.log, creIds_append, List.mem_append, not_or] at hid
    obtain ⟨f1, f2⟩ := hB.fresh id hid.1
    rw [h.log, outcomes_append, List.any_append, f1, f2]
    refine ⟨?_, ?_⟩
    · apply Nat.eq_zero_of_not_pos
      intro hp
      exact hid.1 (hcz id (by omega)).2.2.2
    · cases hk : δ.any (isCancelled id) with
      | false => rfl
      | true => exact absurd (h.can id hk) hid.1
  · intro id i t hm
    rw [h.log, List.mem_append] at hm
    rw [h.log, outcomes_append, List.any_append]
    rcases hm with hm | hm
    · have hcr : id ∈ creIds s.log := (mem_creIds_iff id _).2 ⟨_, hm, by simp [creates]⟩
      rw [since_append_old δ hcr, List.any_append]
      rcases hB.res id i t hm with ⟨e, he, hi⟩ | h1 | h1 | h1
      · have ha : e.app = true := by
          obtain ⟨t', _, hc, _⟩ := hA.cre e he
          cases hap : e.app with
          | true => rfl
          | false =>
            exfalso
            unfold creation at hc
            simp only [hap] at hc
            -- two different creations of one identifier
            have hn := (List.nodup_append.1 hA.nodup).1
            unfold creIds at hn
            obtain ⟨a, b, hab⟩ := List.append_of_mem hm
            rw [hab] at hn hc
            rw [List.filterMap_append, List.filterMap_cons, List.nodup_append] at hn
            simp only [List.mem_append, List.mem_cons] at hc
            rcases hc with hc | hc | hc
            · exact hn.2.2 id (List.mem_filterMap.2 ⟨_, hc, by simp [hi]⟩) id (by simp) rfl
            · simp at hc
            · have := (List.nodup_cons.1 hn.2.1).1
              exact this (List.mem_filterMap.2 ⟨_, hc, by simp [hi]⟩)
        have hz := hB.zero e he
        rw [hi] at hz
        rcases h.gone e he ha with ⟨e', he', h'⟩ | h' | h' | h'
        · exact Or.inl ⟨e', he', by rw [h', hi]⟩
        · right; left; rw [hi] at h'; omega
        · right; right; left; rw [hi] at h'; simp [h']
        · right; right; right; simp [h']
      · right; left
        by_cases hp : 0 < outcomes id δ
        · have := (hcz id hp).1; omega
        · omega
      · right; right; left; simp [h1]
      · right; right; right; simp [h1]
    · exact Or.inl (h.cre id i t hm)
  · intro pre post id hab
    rw [h.log] at hab
    rcases List.append_eq_append_iff.1 hab with ⟨c, hc1, hc2⟩ | ⟨c, hc1, hc2⟩
    · -- the cancellation is in δ
      apply Nat.eq_zero_of_not_pos
      intro hp
      have : 0 < outcomes id δ := by
        rw [hc2, outcomes_append, outcomes_cons]; omega
      have := (h.out id this).2.1
      rw [List.any_eq_false] at this
      exact this (.cancelled id) (by rw [hc2]; simp) (by simp [isCancelled])
    · cases c with
      | nil =>
        simp only [List.nil_append] at hc2
        apply Nat.eq_zero_of_not_pos
        intro hp
        have : 0 < outcomes id δ := by
          rw [← hc2, outcomes_cons]; omega
        have := (h.out id this).2.1
        rw [List.any_eq_false] at this
        exact this (.cancelled id) (by rw [← hc2]; simp) (by simp [isCancelled])
      | cons x c =>
        simp only [List.cons_append, List.cons.injEq] at hc2
        obtain ⟨rfl, hc2⟩ := hc2
        rw [hc2, outcomes_append, hB.after pre c id hc1]
        apply Nat.eq_zero_of_not_pos
        intro hp
        have := (hcz id (by omega)).2.1
        rw [List.any_eq_false] at this
        exact this (.cancelled id) (by rw [hc1]; simp) (by simp [isCancelled])
  · intro pre post hab id hid
    rw [h.log] at hab
    have inδ : Obs.cleared ∈ δ → (0 < outcomes id post → 0 < outcomes id δ) → outcomes id post = 0 := by
      intro hm hpd
      apply Nat.eq_zero_of_not_pos
      intro hp
      have := (h.out id (hpd hp)).2.2
      rw [List.any_eq_false] at this
      exact this _ hm rfl
    rcases List.append_eq_append_iff.1 hab with ⟨c, hc1, hc2⟩ | ⟨c, hc1, hc2⟩
    · exact inδ (by rw [hc2]; simp) (by rw [hc2, outcomes_append, outcomes_cons]; omega)
    · cases c with
      | nil =>
        simp only [List.nil_append] at hc2
        exact inδ (by rw [← hc2]; simp) (by rw [← hc2, outcomes_cons]; omega)
      | cons x c =>
        simp only [List.cons_append, List.cons.injEq] at hc2
        obtain ⟨rfl, hc2⟩ := hc2
        rw [hc2, outcomes_append, hB.afterClear pre c hc1 id hid]
        apply Nat.eq_zero_of_not_pos
        intro hp
        have := (hcz id (by omega)).2.2.1
        rw [hc1, since_append_old _ hid, List.any_append] at this
        simp [isCleared] at this

theorem inv_calm {ops : List (Op I D)} {s : St I D} (hA : InvA E s) (hB : InvB s) (hc : ∀ op ∈ ops, Calm op) :
    InvA E (run E s ops) ∧ InvB (run E s ops) := by
  induction ops generalizing s with
  | nil => exact ⟨hA, hB⟩
  | cons op ops ih =>
    have hA' := invA_step hA op
    obtain ⟨δ, hδ⟩ := eff_step hA op (hc op (by simp))
    exact ih hA' (invB_eff hA hB hδ hA') (fun o ho => hc o (by simp [ho]))

end Ndn.Face
