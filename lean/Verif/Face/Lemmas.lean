import Verif.Face.Spec
/-
Lemmas about the Face model: the loops, and the invariant of the identifiers (for every history,
whether or not callbacks throw).
-/
namespace Ndn.Face
open Spec
open scoped List
variable {I D : Type} {E : Env I D}

/-- The part of an entry that never changes while it is pending. -/
def core (e : Entry I) : Nat × I × Bool × Nat := (e.id, e.interest, e.app, e.expiry)

/-- Identifiers of the records made. -/
def creIds (log : List (Obs I D)) : List Nat :=
  log.filterMap fun | .expressed id _ _ => some id | .arrived id _ _ => some id | _ => none

/-- Identifiers of the Interests whose handler has not run. -/
def qIds (q : List (Post I D)) : List Nat :=
  q.filterMap fun | .express id _ => some id | _ => none

@[simp] theorem creIds_nil : creIds ([] : List (Obs I D)) = [] := rfl
@[simp] theorem creIds_append (a b : List (Obs I D)) : creIds (a ++ b) = creIds a ++ creIds b :=
  List.filterMap_append
@[simp] theorem qIds_append (a b : List (Post I D)) : qIds (a ++ b) = qIds a ++ qIds b :=
  List.filterMap_append
@[simp] theorem handles_append (a b : List (Obs I D)) : handles (a ++ b) = handles a ++ handles b :=
  List.filterMap_append

/-! ### The loops -/

theorem satisfy_sub (d : D) (boom : Nat → Bool) (es : List (Entry I)) :
    (satisfy E d boom es).pit.Sublist es := by
  induction es with
  | nil => simp [satisfy]
  | cons e es ih =>
    simp only [satisfy]
    split
    · exact ih.cons_cons e
    · split
      · split
        · exact List.Sublist.refl _
        · exact ih.cons e
      · exact ih.cons e

theorem satisfy_log (d : D) (boom : Nat → Bool) (es : List (Entry I)) :
    ∀ o ∈ (satisfy E d boom es).log, ∃ e ∈ es, e.app = true ∧ E.matchesData e.interest d = true ∧
      o = .data e.id e.interest d := by
  induction es with
  | nil => simp [satisfy]
  | cons e es ih =>
    intro o ho
    have tl : ∀ o ∈ (satisfy E d boom es).log, ∃ x ∈ e :: es, x.app = true ∧
        E.matchesData x.interest d = true ∧ o = .data x.id x.interest d := by
      intro o ho
      obtain ⟨x, hx, h⟩ := ih o ho
      exact ⟨x, by simp [hx], h⟩
    simp only [satisfy] at ho
    split at ho
    · exact tl o ho
    · rename_i hm
      have hm : E.matchesData e.interest d = true := by simpa using hm
      split at ho
      · rename_i ha
        split at ho
        · have : o = .data e.id e.interest d := by simpa using ho
          exact ⟨e, by simp, ha, hm, this⟩
        · rcases List.mem_cons.1 ho with h | h
          · exact ⟨e, by simp, ha, hm, h⟩
          · exact tl o h
      · exact tl o ho

theorem recordNack_core (e : Entry I) (n : Nack I) : core (recordNack e n).1 = core e := by
  simp only [recordNack]
  split
  · rfl
  · split <;> rfl

theorem recordNack_armed (e : Entry I) (n : Nack I) : (recordNack e n).1.armed = e.armed := by
  simp only [recordNack]
  split
  · rfl
  · split <;> rfl

theorem nackLoop_sub (n : Nack I) (boom : Nat → Bool) (es : List (Entry I)) :
    ((nackLoop (D := D) E n boom es).pit.map core).Sublist (es.map core) := by
  induction es with
  | nil => simp [nackLoop]
  | cons e es ih =>
    simp only [nackLoop]
    split
    · exact ih.cons_cons _
    · split
      · simp only [List.map_cons, recordNack_core]; exact ih.cons_cons _
      · split
        · split
          · simp only [List.map_cons, recordNack_core]; exact List.Sublist.refl _
          · exact ih.cons _
        · exact ih.cons _

/-- Nothing but Nack callbacks and the assertion. -/
def nackish : Obs I D → Bool
  | .nack _ _ _ | .nackCount => true
  | _ => false

theorem nackLoop_log (n : Nack I) (boom : Nat → Bool) (es : List (Entry I)) :
    ∀ o ∈ (nackLoop (D := D) E n boom es).log, nackish o = true := by
  have hc : ∀ b : Bool, ∀ o ∈ (countObs b : List (Obs I D)), nackish o = true := by
    intro b o ho
    cases b <;> simp [countObs] at ho
    subst ho; rfl
  induction es with
  | nil => simp [nackLoop]
  | cons e es ih =>
    intro o ho
    simp only [nackLoop] at ho
    split at ho
    · exact ih o ho
    · split at ho
      · rcases List.mem_append.1 ho with h | h
        · exact hc _ _ h
        · exact ih o h
      · split at ho
        · split at ho
          · rcases List.mem_append.1 ho with h | h
            · exact hc _ _ h
            · simp at h; subst h; rfl
          · rcases List.mem_append.1 ho with h | h
            · exact hc _ _ h
            · rcases List.mem_cons.1 h with h | h
              · subst h; rfl
              · exact ih o h
        · rcases List.mem_append.1 ho with h | h
          · exact hc _ _ h
          · exact ih o h

theorem dispatch_core (boom : Nat → Bool) (e : Entry I) (fs : List (Nat × Filter)) :
    core (dispatch (D := D) E boom e fs).1 = core e ∧
    (dispatch (D := D) E boom e fs).1.armed = e.armed ∧
    (dispatch (D := D) E boom e fs).1.least = e.least := by
  induction fs generalizing e with
  | nil => exact ⟨rfl, rfl, rfl⟩
  | cons x fs ih =>
    obtain ⟨fid, f⟩ := x
    simp only [dispatch]
    split
    · exact ih e
    · split
      · exact ⟨rfl, rfl, rfl⟩
      · obtain ⟨a, b, c⟩ := ih { e with nNotNacked := e.nNotNacked + 1 }
        exact ⟨a.trans rfl, b.trans rfl, c.trans rfl⟩

theorem dispatch_log (boom : Nat → Bool) (e : Entry I) (fs : List (Nat × Filter)) :
    ∀ o ∈ (dispatch (D := D) E boom e fs).2, ∃ x ∈ fs, filterMatch E x.2 e.app e.interest = true ∧
      o = .interest x.1 e.id e.interest := by
  induction fs generalizing e with
  | nil => simp [dispatch]
  | cons x fs ih =>
    obtain ⟨fid, f⟩ := x
    intro o ho
    simp only [dispatch] at ho
    split at ho
    · obtain ⟨x, hx, h⟩ := ih e o ho
      exact ⟨x, by simp [hx], h⟩
    · rename_i hm
      have hm : filterMatch E f e.app e.interest = true := by simpa using hm
      split at ho
      · simp at ho
        exact ⟨(fid, f), by simp, hm, ho⟩
      · rcases List.mem_cons.1 ho with h | h
        · exact ⟨(fid, f), by simp, hm, h⟩
        · obtain ⟨x, hx, h⟩ := ih { e with nNotNacked := e.nNotNacked + 1 } o h
          exact ⟨x, by simp [hx], h⟩

/-! ### Insertion -/

theorem putEntry_fresh (e : Entry I) (es : List (Entry I)) (h : ∀ x ∈ es, x.id ≠ e.id) :
    (putEntry e es).2 = false ∧ (putEntry e es).1.Perm (e :: es) := by
  induction es with
  | nil => exact ⟨rfl, List.Perm.refl _⟩
  | cons x xs ih =>
    have hx := h x (by simp)
    obtain ⟨h1, h2⟩ := ih (fun y hy => h y (by simp [hy]))
    simp only [putEntry]
    split
    · exact ⟨rfl, List.Perm.refl _⟩
    · rw [if_neg (fun hh => hx hh.symm)]
      exact ⟨h1, (h2.cons x).trans (List.Perm.swap e x xs)⟩

theorem putEntry_mem_id {e : Entry I} {es : List (Entry I)} {y : Entry I} (h : y ∈ (putEntry e es).1) :
    y = e ∨ y ∈ es := by
  induction es with
  | nil => simp [putEntry] at h; exact Or.inl h
  | cons x xs ih =>
    simp only [putEntry] at h
    split at h
    · simpa using h
    · split at h
      · exact Or.inr h
      · rcases List.mem_cons.1 h with h | h
        · exact Or.inr (by simp [h])
        · rcases ih h with h | h
          · exact Or.inl h
          · exact Or.inr (by simp [h])

theorem putEntry_sorted (e : Entry I) (es : List (Entry I))
    (h : (es.map Entry.id).Pairwise (· < ·)) : ((putEntry e es).1.map Entry.id).Pairwise (· < ·) := by
  induction es with
  | nil => simp [putEntry]
  | cons x xs ih =>
    rw [List.map_cons, List.pairwise_cons] at h
    simp only [putEntry]
    split
    · rename_i hlt
      simp only [List.map_cons, List.pairwise_cons]
      refine ⟨?_, h.1, h.2⟩
      intro a ha
      rcases List.mem_cons.1 ha with ha | ha
      · omega
      · have := h.1 a ha; omega
    · split
      · simpa only [List.map_cons, List.pairwise_cons] using h
      · simp only [List.map_cons, List.pairwise_cons]
        refine ⟨?_, ih h.2⟩
        intro a ha
        obtain ⟨y, hy, rfl⟩ := List.mem_map.1 ha
        rcases putEntry_mem_id hy with h' | h'
        · subst h'; omega
        · exact h.1 _ (List.mem_map_of_mem h')

theorem putFilter_fresh (fid : Nat) (f : Filter) (fs : List (Nat × Filter)) (h : ∀ x ∈ fs, x.1 ≠ fid) :
    (putFilter fid f fs).2 = false ∧ (putFilter fid f fs).1.Perm ((fid, f) :: fs) := by
  induction fs with
  | nil => exact ⟨rfl, List.Perm.refl _⟩
  | cons x xs ih =>
    have hx := h x (by simp)
    obtain ⟨h1, h2⟩ := ih (fun y hy => h y (by simp [hy]))
    simp only [putFilter]
    split
    · exact ⟨rfl, List.Perm.refl _⟩
    · rw [if_neg (fun hh => hx hh.symm)]
      exact ⟨h1, (h2.cons x).trans (List.Perm.swap _ x xs)⟩

/-! ### Identifiers -/

/-- How the record of an entry was made. -/
def creation (e : Entry I) (t : Nat) : Obs I D :=
  if e.app then .expressed e.id e.interest t else .arrived e.id e.interest t

structure InvA (E : Env I D) (s : St I D) : Prop where
  sorted : (s.pit.map Entry.id).Pairwise (· < ·)
  cre : ∀ e ∈ s.pit, ∃ t, t ≤ s.now ∧ creation e t ∈ s.log ∧ e.expiry = t + E.lifetime e.interest
  le : ∀ id ∈ creIds s.log ++ qIds s.queue, id ≤ s.lastPit
  nodup : (creIds s.log ++ qIds s.queue).Nodup
  hand : ∀ id ∈ handles s.log, id ∈ creIds s.log ++ qIds s.queue
  fifo : ∀ a b id, s.queue = a ++ .cancel id :: b → id ∉ qIds b ∧ id ∈ handles s.log

theorem inv_init : InvA E ({} : St I D) := by
  constructor <;> simp [creIds, qIds, handles]

/-- An observation that makes no record and is no call of `expressInterest`. -/
def plain : Obs I D → Bool
  | .expressed _ _ _ | .arrived _ _ _ | .callExpress _ _ => false
  | _ => true

theorem plain_creIds {l : List (Obs I D)} (h : ∀ o ∈ l, plain o = true) : creIds l = [] := by
  unfold creIds
  rw [List.filterMap_eq_nil_iff]
  intro o ho
  have := h o ho
  cases o <;> simp_all [plain]

theorem plain_handles {l : List (Obs I D)} (h : ∀ o ∈ l, plain o = true) : handles l = [] := by
  unfold handles
  rw [List.filterMap_eq_nil_iff]
  intro o ho
  have := h o ho
  cases o <;> simp_all [plain]

/-- A posted handler that is neither an Interest nor a cancellation. -/
def plainPost : Post I D → Bool
  | .express _ _ | .cancel _ => false
  | _ => true

/-- Steps that only remove records, without a new Interest. -/
theorem invA_shrink {s s' : St I D} (h : InvA E s) (δ : List (Obs I D))
    (hlog : s'.log = s.log ++ δ) (hδ : ∀ o ∈ δ, plain o = true)
    (hpit : (s'.pit.map core).Sublist (s.pit.map core)) (hnow : s.now ≤ s'.now)
    (hl : s'.lastPit = s.lastPit) (hq : s'.queue = s.queue) : InvA E s' := by
  have c0 := plain_creIds hδ
  have h0 := plain_handles hδ
  refine ⟨?_, ?_, ?_, ?_, ?_, ?_⟩
  · have : (s'.pit.map Entry.id).Sublist (s.pit.map Entry.id) := by
      have := hpit.map (fun x => x.1)
      simpa [List.map_map, Function.comp_def, core] using this
    exact h.sorted.sublist this
  · intro e he
    have : core e ∈ s.pit.map core := hpit.subset (List.mem_map_of_mem he)
    obtain ⟨x, hx, hc⟩ := List.mem_map.1 this
    simp only [core, Prod.mk.injEq] at hc
    obtain ⟨t, h1, h2, h3⟩ := h.cre x hx
    refine ⟨t, by omega, ?_, ?_⟩
    · rw [hlog, List.mem_append]
      left
      unfold creation at h2 ⊢
      rw [hc.1, hc.2.1, hc.2.2.1] at h2
      exact h2
    · rw [← hc.2.2.2, ← hc.2.1]; exact h3
  · rw [hlog, hq, hl, creIds_append, c0, List.append_nil]; exact h.le
  · rw [hlog, hq, creIds_append, c0, List.append_nil]; exact h.nodup
  · rw [hlog, hq, creIds_append, c0, List.append_nil, handles_append, h0, List.append_nil]; exact h.hand
  · rw [hlog, hq, handles_append, h0, List.append_nil]; exact h.fifo

/-- Posting a handler that is neither an Interest nor a cancellation. -/
theorem invA_post {s s' : St I D} (h : InvA E s) (p : Post I D) (hp : plainPost p = true)
    (δ : List (Obs I D)) (hlog : s'.log = s.log ++ δ) (hδ : ∀ o ∈ δ, plain o = true)
    (hpit : s'.pit = s.pit) (hnow : s.now = s'.now)
    (hl : s'.lastPit = s.lastPit) (hq : s'.queue = s.queue ++ [p]) : InvA E s' := by
  have c0 := plain_creIds hδ
  have h0 := plain_handles hδ
  have q0 : qIds [p] = [] := by cases p <;> simp_all [qIds, plainPost]
  refine ⟨by rw [hpit]; exact h.sorted, ?_, ?_, ?_, ?_, ?_⟩
  · intro e he
    rw [hpit] at he
    obtain ⟨t, h1, h2, h3⟩ := h.cre e he
    exact ⟨t, by omega, by rw [hlog]; simp [h2], h3⟩
  · rw [hlog, hq, hl, creIds_append, qIds_append, c0, q0]; simpa using h.le
  · rw [hlog, hq, creIds_append, qIds_append, c0, q0]; simpa using h.nodup
  · rw [hlog, hq, creIds_append, qIds_append, handles_append, c0, h0, q0]; simpa using h.hand
  · intro a b id hab
    rw [hq] at hab
    rcases List.eq_nil_or_concat b with hb | ⟨b', x, hb⟩
    · subst hb
      have := List.append_inj' hab (by simp)
      simp at this
      rw [this.2] at hp
      simp [plainPost] at hp
    · subst hb
      rw [List.concat_eq_append, ← List.cons_append, ← List.append_assoc] at hab
      have := List.append_inj' hab (by simp)
      obtain ⟨h1, h2⟩ := h.fifo a b' id this.1
      have hx : x = p := by simpa using this.2.symm
      rw [List.concat_eq_append, qIds_append, hx, q0, List.append_nil, hlog, handles_append]
      exact ⟨h1, by simp [h2]⟩

/-- Removing the first handler, when it is not an Interest. -/
theorem invA_pop {s : St I D} (h : InvA E s) (p : Post I D) (ps : List (Post I D))
    (hq : s.queue = p :: ps) (hp : qIds [p] = []) : InvA E { s with queue := ps } := by
  have e : qIds s.queue = qIds ps := by
    rw [hq, show p :: ps = [p] ++ ps from rfl, qIds_append, hp]; rfl
  refine ⟨h.sorted, h.cre, ?_, ?_, ?_, ?_⟩
  · have := h.le; rw [e] at this; exact this
  · have := h.nodup; rw [e] at this; exact this
  · have := h.hand; rw [e] at this; exact this
  · intro a b id hab
    exact h.fifo (p :: a) b id (by rw [hq]; simp only [] at hab; rw [hab]; rfl)

/-- Making a record with an identifier that has not been used. -/
theorem invA_create {s s' : St I D} (h : InvA E s) (e : Entry I) (δ₁ δ₂ : List (Obs I D))
    (hlog : s'.log = s.log ++ (δ₁ ++ creation e s.now :: δ₂)) (hδ₁ : ∀ o ∈ δ₁, plain o = true)
    (hδ : ∀ o ∈ δ₂, plain o = true)
    (hx : e.expiry = s.now + E.lifetime e.interest)
    (hpit : s'.pit = (putEntry e s.pit).1) (hnow : s'.now = s.now)
    (hcr : creIds s.log ++ e.id :: qIds s'.queue ~ creIds s.log ++ qIds s.queue ∨
      (e.id = s.lastPit + 1 ∧ s'.queue = s.queue))
    (hl : e.id ≤ s'.lastPit ∧ s.lastPit ≤ s'.lastPit)
    (hq : s'.queue <:+ s.queue) : InvA E s' := by
  have c1 := plain_creIds hδ₁
  have h1 := plain_handles hδ₁
  have c2 := plain_creIds hδ
  have h2 := plain_handles hδ
  have cc : creIds ([creation e s.now] : List (Obs I D)) = [e.id] := by
    unfold creation; cases e.app <;> rfl
  have ch : handles ([creation e s.now] : List (Obs I D)) = [] := by
    unfold creation; cases e.app <;> rfl
  have hc : creIds s'.log = creIds s.log ++ [e.id] := by
    rw [hlog, show creation e s.now :: δ₂ = [creation e s.now] ++ δ₂ from rfl]
    rw [creIds_append, creIds_append, creIds_append, c1, cc, c2]; rfl
  have hh : handles s'.log = handles s.log := by
    rw [hlog, show creation e s.now :: δ₂ = [creation e s.now] ++ δ₂ from rfl]
    rw [handles_append, handles_append, handles_append, h1, ch, h2]; simp
  have hcr' : creIds s'.log ++ qIds s'.queue ~ creIds s.log ++ qIds s.queue ∨
      (e.id = s.lastPit + 1 ∧ s'.queue = s.queue) := by
    rw [hc, List.append_assoc]; exact hcr
  refine ⟨?_, ?_, ?_, ?_, ?_, ?_⟩
  · rw [hpit]; exact putEntry_sorted e s.pit h.sorted
  · intro x hx'
    rw [hpit] at hx'
    rcases putEntry_mem_id hx' with rfl | hx'
    · exact ⟨s.now, by omega, by rw [hlog]; simp, hx⟩
    · obtain ⟨t, a, b, c⟩ := h.cre x hx'
      exact ⟨t, by omega, by rw [hlog]; simp [b], c⟩
  · intro id hid
    rcases hcr' with p | ⟨p, q⟩
    · have := h.le id (p.subset hid); omega
    · rw [hc, q] at hid
      simp only [List.mem_append, List.mem_singleton] at hid
      rcases hid with (hid | hid) | hid
      · have := h.le id (by simp [hid]); omega
      · omega
      · have := h.le id (by simp [hid]); omega
  · rcases hcr' with p | ⟨p, q⟩
    · exact p.nodup_iff.2 h.nodup
    · rw [hc, q]
      have hn : e.id ∉ creIds s.log ++ qIds s.queue := by
        intro hh; have := h.le _ hh; omega
      have : creIds s.log ++ [e.id] ++ qIds s.queue ~ e.id :: (creIds s.log ++ qIds s.queue) := by
        rw [List.append_assoc]; exact List.perm_middle
      exact this.nodup_iff.2 (List.nodup_cons.2 ⟨hn, h.nodup⟩)
  · intro id hid
    rw [hh] at hid
    have := h.hand id hid
    rcases hcr' with p | ⟨p, q⟩
    · exact p.symm.subset this
    · rw [hc, q]
      simp only [List.mem_append, List.mem_singleton] at this ⊢
      rcases this with h | h
      · exact Or.inl (Or.inl h)
      · exact Or.inr h
  · intro a b id hab
    obtain ⟨c, hc'⟩ := hq
    have := h.fifo (c ++ a) b id (by rw [← hc', hab]; simp)
    rw [hh]; exact this

theorem creation_eq {e e' : Entry I} (h : core e = core e') (t : Nat) :
    (creation e t : Obs I D) = creation e' t := by
  simp only [core, Prod.mk.injEq] at h
  unfold creation
  rw [h.1, h.2.1, h.2.2.1]

theorem plain_dup (b : Bool) : ∀ o ∈ (dupObs b : List (Obs I D)), plain o = true := by
  cases b <;> simp [dupObs, plain]

theorem plain_count (b : Bool) : ∀ o ∈ (countObs b : List (Obs I D)), plain o = true := by
  cases b <;> simp [countObs, plain]

theorem plain_dispatch (boom : Nat → Bool) (e : Entry I) (fs : List (Nat × Filter)) :
    ∀ o ∈ (dispatch (D := D) E boom e fs).2, plain o = true := by
  intro o ho
  obtain ⟨_, _, _, rfl⟩ := dispatch_log boom e fs o ho
  rfl

theorem plain_satisfy (d : D) (boom : Nat → Bool) (es : List (Entry I)) :
    ∀ o ∈ (satisfy E d boom es).log, plain o = true := by
  intro o ho
  obtain ⟨_, _, _, _, rfl⟩ := satisfy_log d boom es o ho
  rfl

theorem plain_nackLoop (n : Nack I) (boom : Nat → Bool) (es : List (Entry I)) :
    ∀ o ∈ (nackLoop (D := D) E n boom es).log, plain o = true := by
  intro o ho
  have := nackLoop_log n boom es o ho
  cases o <;> simp_all [nackish, plain]

/-! ### Shapes of the handlers -/

theorem doPutData_shape (boom : Nat → Bool) (s : St I D) (d : D) :
    ∃ δ, doPutData E boom s d = { s with pit := (satisfy E d boom s.pit).pit, log := s.log ++ .putData d :: (satisfy E d boom s.pit).log ++ δ } ∧
      (δ = [] ∨ δ = [.oversized] ∨ δ = [.sentData d]) := by
  simp only [doPutData]
  split
  · exact ⟨[], by simp, by simp⟩
  · split
    · exact ⟨[], by simp, by simp⟩
    · split
      · exact ⟨[.oversized], by simp, by simp⟩
      · exact ⟨[.sentData d], by simp, by simp⟩

theorem doPutNack_shape (boom : Nat → Bool) (s : St I D) (n : Nack I) :
    ∃ δ, doPutNack E boom s n = { s with pit := (nackLoop (D := D) E n boom s.pit).pit, log := s.log ++ .putNack n :: (nackLoop (D := D) E n boom s.pit).log ++ δ } ∧
      (δ = [] ∨ δ = [.oversized] ∨ ∃ m, δ = [.sentNack m]) := by
  simp only [doPutNack]
  split
  · exact ⟨[], by simp, by simp⟩
  · split
    · exact ⟨[], by simp, by simp⟩
    · rename_i m _
      split
      · exact ⟨[.oversized], by simp, by simp⟩
      · exact ⟨[.sentNack m], by simp, Or.inr (Or.inr ⟨m, rfl⟩)⟩

theorem doUnregister_shape (s : St I D) (id : Nat) :
    ∃ δ fs cs, doUnregister s id = { s with filters := fs, cmds := cs, log := s.log ++ δ } ∧
      ((δ = [.unregFail id] ∧ fs = s.filters ∧ cs = s.cmds) ∨
       (∃ r ∈ s.regs, r.id = id ∧ cs = s.cmds ++ [.unregister id] ∧
        ((r.filterId = 0 ∧ δ = [] ∧ fs = s.filters) ∨
         (r.filterId ≠ 0 ∧ δ = [.filterUnset r.filterId] ∧ fs = s.filters.filter (fun x => x.1 != r.filterId))))) := by
  simp only [doUnregister]
  split
  · exact ⟨_, _, _, rfl, Or.inl ⟨rfl, rfl, rfl⟩⟩
  · rename_i r hr
    have hm := List.mem_of_find?_eq_some hr
    have hi : r.id = id := by have := List.find?_some hr; simpa using this
    by_cases h0 : r.filterId = 0
    · rw [if_neg (by simp [h0])]
      exact ⟨[], s.filters, _, by simp, Or.inr ⟨r, hm, hi, rfl, Or.inl ⟨h0, rfl, rfl⟩⟩⟩
    · rw [if_pos (by simp [h0])]
      exact ⟨_, _, _, rfl, Or.inr ⟨r, hm, hi, rfl, Or.inr ⟨h0, rfl, rfl⟩⟩⟩

theorem doReply_shape (s : St I D) (k : Nat) (ok : Bool) :
    ∃ δ, (doReply s k ok).log = s.log ++ δ ∧ (∀ o ∈ δ, plain o = true) ∧ (doReply s k ok).pit = s.pit ∧
      (doReply s k ok).now = s.now ∧ (doReply s k ok).lastPit = s.lastPit ∧ (doReply s k ok).queue = s.queue := by
  simp only [doReply]
  split
  · exact ⟨[], by simp, by simp, rfl, rfl, rfl, rfl⟩
  · split
    · split
      · exact ⟨_, rfl, by simp [plain], rfl, rfl, rfl, rfl⟩
      · rename_i f _
        refine ⟨_, by simp only [List.append_assoc, List.cons_append]; rfl, ?_, rfl, rfl, rfl, rfl⟩
        intro o ho
        simp only [List.mem_cons, List.mem_append] at ho
        rcases ho with rfl | ho | ho | ho
        · rfl
        · exact plain_dup _ _ ho
        · subst ho; rfl
        · simp at ho
    · exact ⟨_, rfl, by simp [plain], rfl, rfl, rfl, rfl⟩
  · split
    · exact ⟨_, rfl, by simp [plain], rfl, rfl, rfl, rfl⟩
    · exact ⟨_, rfl, by simp [plain], rfl, rfl, rfl, rfl⟩

theorem core_armed (e : Entry I) (b : Bool) : core { e with armed := b } = core e := rfl

theorem doFire_shape (boom : Nat → Bool) (s : St I D) (id : Nat) :
    ∃ δ, (doFire boom s id).log = s.log ++ δ ∧ (∀ o ∈ δ, plain o = true) ∧
      ((doFire boom s id).pit.map core).Sublist (s.pit.map core) ∧
      (doFire boom s id).now = s.now ∧ (doFire boom s id).lastPit = s.lastPit ∧ (doFire boom s id).queue = s.queue := by
  simp only [doFire]
  split
  · exact ⟨[], by simp, by simp, List.Sublist.refl _, rfl, rfl, rfl⟩
  · split
    · split
      · refine ⟨_, rfl, by simp [plain], ?_, rfl, rfl, rfl⟩
        rw [List.map_map]
        have : (core ∘ fun x : Entry I => if (x.id == id) = true then { x with armed := false } else x) = core := by
          funext x
          simp only [Function.comp_apply]
          split <;> rfl
        rw [this]
        exact List.Sublist.refl _
      · exact ⟨_, rfl, by simp [plain], List.filter_sublist.map _, rfl, rfl, rfl⟩
    · exact ⟨[], by simp, by simp, List.filter_sublist.map _, rfl, rfl, rfl⟩

theorem newEntry_eq (id : Nat) (i : I) (app : Bool) (now : Nat) (k : Int) :
    core { newEntry E id i app now with nNotNacked := k } = (id, i, app, now + E.lifetime i) := rfl

/-- `doExpress` and `doArrive` make one record. -/
theorem doExpress_shape (boom : Nat → Bool) (s : St I D) (id : Nat) (i : I) :
    ∃ e δ, doExpress E boom s id i = { s with pit := (putEntry e s.pit).1, log := s.log ++ .expressed id i s.now :: δ } ∧
      core e = (id, i, true, s.now + E.lifetime i) ∧ e.armed = true ∧ e.least = none ∧
      ((E.sizeI i > maxPacket ∧ e.nNotNacked = 1 ∧ δ = dupObs (putEntry e s.pit).2 ++ [.oversized]) ∨
       (¬ E.sizeI i > maxPacket ∧ e = (dispatch (D := D) E boom { newEntry E id i true s.now with nNotNacked := 1 } s.filters).1 ∧
        δ = dupObs (putEntry e s.pit).2 ++ .sentInterest i :: (dispatch (D := D) E boom { newEntry E id i true s.now with nNotNacked := 1 } s.filters).2)) := by
  simp only [doExpress]
  split
  · rename_i hs
    refine ⟨{ newEntry E id i true s.now with nNotNacked := 1 }, _, ?_, rfl, rfl, rfl, Or.inl ⟨hs, rfl, rfl⟩⟩
    simp [newEntry]
  · rename_i hs
    obtain ⟨h1, h2, h3⟩ := dispatch_core (D := D) (E := E) boom { newEntry E id i true s.now with nNotNacked := 1 } s.filters
    refine ⟨_, _, ?_, h1, h2, h3, Or.inr ⟨hs, rfl, rfl⟩⟩
    simp [newEntry]

theorem doArrive_shape (boom : Nat → Bool) (s : St I D) (i : I) :
    ∃ e δ, doArrive E boom s i = { s with lastPit := s.lastPit + 1, pit := (putEntry e s.pit).1, log := s.log ++ .arrived (s.lastPit + 1) i s.now :: δ } ∧
      core e = (s.lastPit + 1, i, false, s.now + E.lifetime i) ∧ e.armed = true ∧ e.least = none ∧
      e = (dispatch (D := D) E boom (newEntry E (s.lastPit + 1) i false s.now) s.filters).1 ∧
      δ = dupObs (putEntry e s.pit).2 ++ (dispatch (D := D) E boom (newEntry E (s.lastPit + 1) i false s.now) s.filters).2 := by
  obtain ⟨h1, h2, h3⟩ := dispatch_core (D := D) (E := E) boom (newEntry E (s.lastPit + 1) i false s.now) s.filters
  exact ⟨_, _, by simp [doArrive], h1, h2, h3, rfl, rfl⟩

theorem invA_express {s : St I D} (h : InvA E s) (boom : Nat → Bool) (id : Nat) (i : I) (ps : List (Post I D))
    (hq : s.queue = .express id i :: ps) : InvA E (doExpress E boom { s with queue := ps } id i) := by
  obtain ⟨e, δ, hs, hc, _, _, hd⟩ := doExpress_shape (E := E) boom { s with queue := ps } id i
  have hpl : ∀ o ∈ δ, plain o = true := by
    rcases hd with ⟨_, _, rfl⟩ | ⟨_, _, rfl⟩
    · intro o ho
      rcases List.mem_append.1 ho with ho | ho
      · exact plain_dup _ _ ho
      · simp at ho; subst ho; rfl
    · intro o ho
      rcases List.mem_append.1 ho with ho | ho
      · exact plain_dup _ _ ho
      · rcases List.mem_cons.1 ho with ho | ho
        · subst ho; rfl
        · exact plain_dispatch _ _ _ _ ho
  simp only [core, Prod.mk.injEq] at hc
  have qe : qIds s.queue = id :: qIds ps := by rw [hq]; rfl
  rw [hs]
  refine invA_create h e [] δ ?_ (by simp) hpl ?_ rfl rfl (Or.inl ?_) ?_ ?_
  · simp [creation, hc]
  · rw [hc.2.1]; exact hc.2.2.2
  · rw [qe, hc.1]
  · have := h.le id (by simp [qe])
    simp only
    omega
  · rw [hq]; exact List.suffix_cons _ _

theorem invA_arrive {s : St I D} (h : InvA E s) (boom : Nat → Bool) (i : I) :
    InvA E (doArrive E boom s i) := by
  obtain ⟨e, δ, hs, hc, _, _, _, hd⟩ := doArrive_shape (E := E) boom s i
  have hpl : ∀ o ∈ δ, plain o = true := by
    subst hd
    intro o ho
    rcases List.mem_append.1 ho with ho | ho
    · exact plain_dup _ _ ho
    · exact plain_dispatch _ _ _ _ ho
  simp only [core, Prod.mk.injEq] at hc
  rw [hs]
  refine invA_create h e [] δ ?_ (by simp) hpl ?_ rfl rfl (Or.inr ⟨hc.1, rfl⟩) ?_ (List.suffix_refl _)
  · simp [creation, hc]
  · rw [hc.2.1]; exact hc.2.2.2
  · simp only
    omega

theorem invA_handle {s : St I D} (h : InvA E s) (boom : Nat → Bool) (p : Post I D) (ps : List (Post I D))
    (hq : s.queue = p :: ps) : InvA E (handle E boom { s with queue := ps } p) := by
  by_cases hp : qIds [p] = []
  · have h1 := invA_pop h p ps hq hp
    generalize { s with queue := ps } = s₁ at h1
    cases p with
    | express id i => simp [qIds] at hp
    | cancel id => exact invA_shrink h1 [.cancelled id] rfl (by simp [plain]) (List.filter_sublist.map _) (Nat.le_refl _) rfl rfl
    | removeAll => exact invA_shrink h1 [.cleared] rfl (by simp [plain]) (by simp [handle]) (Nat.le_refl _) rfl rfl
    | putData d =>
      simp only [handle]
      obtain ⟨δ, hs, hd⟩ := doPutData_shape (E := E) boom s₁ d
      rw [hs]
      refine invA_shrink h1 (.putData d :: (satisfy E d boom s₁.pit).log ++ δ) (by simp) ?_ ((satisfy_sub d boom s₁.pit).map _) (Nat.le_refl _) rfl rfl
      intro o ho
      rcases List.mem_append.1 ho with ho | ho
      · rcases List.mem_cons.1 ho with ho | ho
        · subst ho; rfl
        · exact plain_satisfy _ _ _ _ ho
      · rcases hd with rfl | rfl | rfl <;> simp at ho <;> subst ho <;> rfl
    | putNack n =>
      simp only [handle]
      obtain ⟨δ, hs, hd⟩ := doPutNack_shape (E := E) boom s₁ n
      rw [hs]
      refine invA_shrink h1 (.putNack n :: (nackLoop (D := D) E n boom s₁.pit).log ++ δ) (by simp) ?_ (nackLoop_sub n boom s₁.pit) (Nat.le_refl _) rfl rfl
      intro o ho
      rcases List.mem_append.1 ho with ho | ho
      · rcases List.mem_cons.1 ho with ho | ho
        · subst ho; rfl
        · exact plain_nackLoop _ _ _ _ ho
      · rcases hd with rfl | rfl | ⟨m, rfl⟩ <;> simp at ho <;> subst ho <;> rfl
    | setFilter fid f =>
      refine invA_shrink h1 (.filterSet fid f :: dupObs (putFilter fid f s₁.filters).2) rfl ?_ (List.Sublist.refl _) (Nat.le_refl _) rfl rfl
      intro o ho
      rcases List.mem_cons.1 ho with ho | ho
      · subst ho; rfl
      · exact plain_dup _ _ ho
    | unsetFilter fid => exact invA_shrink h1 [.filterUnset fid] rfl (by simp [plain]) (List.Sublist.refl _) (Nat.le_refl _) rfl rfl
    | unregister id =>
      simp only [handle]
      obtain ⟨δ, fs, cs, hs, hd⟩ := doUnregister_shape s₁ id
      rw [hs]
      refine invA_shrink h1 δ rfl ?_ (List.Sublist.refl _) (Nat.le_refl _) rfl rfl
      rcases hd with ⟨rfl, _⟩ | ⟨r, _, _, _, ⟨_, rfl, _⟩ | ⟨_, rfl, _⟩⟩ <;> simp [plain]
    | shutdown => exact invA_shrink h1 [.cleared] rfl (by simp [plain]) (by simp [handle, doShutdown]) (Nat.le_refl _) rfl rfl
  · cases p with
    | express id i => exact invA_express h boom id i ps hq
    | _ => simp [qIds] at hp

theorem invA_step {s : St I D} (h : InvA E s) (op : Op I D) : InvA E (step E s op) := by
  cases op with
  | express i =>
    have hn : s.lastPit + 1 ∉ creIds s.log ++ qIds s.queue := by
      intro hh; have := h.le _ hh; omega
    have e1 : creIds (s.log ++ [.callExpress (s.lastPit + 1) i]) = creIds s.log := by
      rw [creIds_append]; simp [creIds]
    have e2 : qIds (s.queue ++ [.express (s.lastPit + 1) i]) = qIds s.queue ++ [s.lastPit + 1] := by
      rw [qIds_append]; rfl
    have e3 : handles (s.log ++ [.callExpress (s.lastPit + 1) i]) = handles s.log ++ [s.lastPit + 1] := by
      rw [handles_append]; rfl
    refine ⟨h.sorted, ?_, ?_, ?_, ?_, ?_⟩
    · intro e he
      obtain ⟨t, a, b, c⟩ := h.cre e he
      exact ⟨t, a, by simp [step, b], c⟩
    · simp only [step]
      rw [e1, e2]
      intro id hid
      rw [← List.append_assoc, List.mem_append] at hid
      rcases hid with hid | hid
      · have := h.le id hid; omega
      · simp at hid; omega
    · simp only [step]
      rw [e1, e2, ← List.append_assoc]
      rw [List.nodup_append]
      refine ⟨h.nodup, by simp, ?_⟩
      intro a ha b hb hab
      simp at hb
      subst hb; subst hab
      exact hn ha
    · simp only [step]
      rw [e1, e2, e3, ← List.append_assoc]
      intro id hid
      rcases List.mem_append.1 hid with hid | hid
      · exact List.mem_append_left _ (h.hand id hid)
      · exact List.mem_append_right _ hid
    · simp only [step]
      rw [e3]
      intro a b id hab
      rcases List.eq_nil_or_concat b with hb | ⟨b', x, hb⟩
      · subst hb
        have := List.append_inj' hab (by simp)
        simp at this
      · subst hb
        rw [List.concat_eq_append, ← List.cons_append, ← List.append_assoc] at hab
        have := List.append_inj' hab (by simp)
        obtain ⟨h1, h2⟩ := h.fifo a b' id this.1
        have hx : x = .express (s.lastPit + 1) i := by simpa using this.2.symm
        rw [List.concat_eq_append, qIds_append, hx]
        refine ⟨?_, List.mem_append_left _ h2⟩
        simp only [List.mem_append, not_or]
        refine ⟨h1, ?_⟩
        have := h.hand id h2
        have := h.le id this
        simp [qIds]
        omega
  | cancel id =>
    simp only [step]
    split
    · rename_i hc
      have hc : id ∈ handles s.log := by simpa using hc
      have e1 : creIds (s.log ++ [.callCancel id]) = creIds s.log := by
        rw [creIds_append]; simp [creIds]
      have e2 : qIds (s.queue ++ [.cancel id]) = qIds s.queue := by
        rw [qIds_append]; simp [qIds]
      have e3 : handles (s.log ++ [.callCancel id]) = handles s.log := by
        rw [handles_append]; simp [handles]
      refine ⟨h.sorted, ?_, ?_, ?_, ?_, ?_⟩
      · intro e he
        obtain ⟨t, a, b, c⟩ := h.cre e he
        exact ⟨t, a, by simp [b], c⟩
      · simp only; rw [e1, e2]; exact h.le
      · simp only; rw [e1, e2]; exact h.nodup
      · simp only; rw [e1, e2, e3]; exact h.hand
      · simp only; rw [e3]
        intro a b id' hab
        rcases List.eq_nil_or_concat b with hb | ⟨b', x, hb⟩
        · subst hb
          have := List.append_inj' hab (by simp)
          simp at this
          refine ⟨by simp [qIds], by rw [← this.2]; exact hc⟩
        · subst hb
          rw [List.concat_eq_append, ← List.cons_append, ← List.append_assoc] at hab
          have := List.append_inj' hab (by simp)
          obtain ⟨h1, h2⟩ := h.fifo a b' id' this.1
          have hx : x = .cancel id := by simpa using this.2.symm
          rw [List.concat_eq_append, qIds_append, hx]
          exact ⟨by simpa [qIds] using h1, h2⟩
    · exact h
  | removeAll => exact invA_post h .removeAll rfl [] (by simp [step]) (by simp) rfl rfl rfl rfl
  | putData d => exact invA_post h (.putData d) rfl [] (by simp [step]) (by simp) rfl rfl rfl rfl
  | putNack n => exact invA_post h (.putNack n) rfl [] (by simp [step]) (by simp) rfl rfl rfl rfl
  | setFilter f => exact invA_post h (.setFilter (s.lastFilter + 1) f) rfl [] (by simp [step]) (by simp) rfl rfl rfl rfl
  | unsetFilter fid =>
    simp only [step]
    split
    · exact invA_post h (.unsetFilter fid) rfl [.callUnset fid] rfl (by simp [plain]) rfl rfl rfl rfl
    · exact h
  | register pfx f =>
    exact invA_shrink h [.callRegister (s.lastReg + 1)] rfl (by simp [plain]) (List.Sublist.refl _) (Nat.le_refl _) rfl rfl
  | unregister id =>
    simp only [step]
    split
    · exact invA_post h (.unregister id) rfl [.callUnregister id] rfl (by simp [plain]) rfl rfl rfl rfl
    · exact h
  | shutdown => exact invA_post h .shutdown rfl [] (by simp [step]) (by simp) rfl rfl rfl rfl
  | run boom =>
    simp only [step]
    split
    · exact h
    · rename_i p ps hq
      exact invA_handle h boom p ps hq
  | fire id boom =>
    obtain ⟨δ, a, b, c, d, e, f⟩ := doFire_shape boom s id
    exact invA_shrink h δ a b c (Nat.le_of_eq d.symm) e f
  | recvInterest i boom => exact invA_arrive h boom i
  | recvData d boom =>
    refine invA_shrink h (.gotData d :: (satisfy E d boom s.pit).log) rfl ?_ ((satisfy_sub d boom s.pit).map _) (Nat.le_refl _) rfl rfl
    intro o ho
    rcases List.mem_cons.1 ho with ho | ho
    · subst ho; rfl
    · exact plain_satisfy _ _ _ _ ho
  | recvNack n boom =>
    refine invA_shrink h (.gotNack n :: (nackLoop (D := D) E n boom s.pit).log) rfl ?_ (nackLoop_sub n boom s.pit) (Nat.le_refl _) rfl rfl
    intro o ho
    rcases List.mem_cons.1 ho with ho | ho
    · subst ho; rfl
    · exact plain_nackLoop _ _ _ _ ho
  | reply k ok =>
    obtain ⟨δ, a, b, c, d, e, f⟩ := doReply_shape s k ok
    exact invA_shrink h δ a b (by simp only [step]; rw [c]; exact List.Sublist.refl _) (Nat.le_of_eq d.symm) e f
  | advance dt => exact invA_shrink h [] (by simp [step]) (by simp) (List.Sublist.refl _) (Nat.le_add_right _ _) rfl rfl
  | unwind => exact invA_shrink h [.cleared] rfl (by simp [plain]) (by simp [step, doShutdown]) (Nat.le_refl _) rfl rfl

theorem invA_run {s : St I D} (h : InvA E s) (ops : List (Op I D)) : InvA E (run E s ops) := by
  induction ops generalizing s with
  | nil => exact h
  | cons op ops ih => exact ih (invA_step h op)

end Ndn.Face
