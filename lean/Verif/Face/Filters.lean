import Verif.Face.Nacks
/-
The invariants of the Interest filters (C50) and of prefix registration (C80).
-/
namespace Ndn.Face
open Spec
open scoped List
variable {I D : Type} {E : Env I D}

/-- Identifiers of the filters set, and of those whose handler has not run. -/
def setIds (log : List (Obs I D)) : List Nat :=
  log.filterMap fun | .filterSet fid _ => some fid | _ => none
def qSet (q : List (Post I D)) : List Nat :=
  q.filterMap fun | .setFilter fid _ => some fid | _ => none

@[simp] theorem setIds_append (a b : List (Obs I D)) : setIds (a ++ b) = setIds a ++ setIds b := List.filterMap_append
@[simp] theorem qSet_append (a b : List (Post I D)) : qSet (a ++ b) = qSet a ++ qSet b := List.filterMap_append

structure InvF (E : Env I D) (s : St I D) : Prop where
  tab : (s.filters.map Prod.fst).Nodup
  live : ∀ fid f, (fid, f) ∈ s.filters ↔ Live s.log fid f
  le : ∀ x ∈ setIds s.log ++ qSet s.queue, 0 < x ∧ x ≤ s.lastFilter
  nodup : (setIds s.log ++ qSet s.queue).Nodup
  unset : ∀ fid, Obs.filterUnset fid ∈ s.log → fid ∉ qSet s.queue ∧ fid ≤ s.lastFilter
  fifo : ∀ a b fid, s.queue = a ++ .unsetFilter fid :: b → fid ∉ qSet b ∧ fid ≤ s.lastFilter
  regs : ∀ r ∈ s.regs, r.filterId ≠ 0 → r.filterId ∈ setIds s.log

theorem invF_init : InvF E ({} : St I D) := by
  constructor <;> simp [setIds, qSet, Live]

/-- Observations about no filter. -/
def noFilt : Obs I D → Bool
  | .filterSet _ _ | .filterUnset _ => false
  | _ => true

theorem noFilt_setIds {l : List (Obs I D)} (h : ∀ o ∈ l, noFilt o = true) : setIds l = [] := by
  unfold setIds
  rw [List.filterMap_eq_nil_iff]
  intro o ho
  have := h o ho
  cases o <;> simp_all [noFilt]

theorem live_noFilt {log δ : List (Obs I D)} (h : ∀ o ∈ δ, noFilt o = true) (fid : Nat) (f : Filter) :
    Live (log ++ δ) fid f ↔ Live log fid f := by
  unfold Live
  have h1 : Obs.filterSet fid f ∉ δ := fun hh => by have := h _ hh; simp [noFilt] at this
  have h2 : Obs.filterUnset fid ∉ δ := fun hh => by have := h _ hh; simp [noFilt] at this
  simp [h1, h2]

theorem invF_same {s s' : St I D} {δ : List (Obs I D)} (h : InvF E s) (hl : s'.log = s.log ++ δ)
    (hδ : ∀ o ∈ δ, noFilt o = true) (hf : s'.filters = s.filters) (hq : s'.queue = s.queue)
    (hn : s'.lastFilter = s.lastFilter) (hr : ∀ r ∈ s'.regs, r ∈ s.regs ∨ r.filterId = 0) : InvF E s' := by
  have e0 := noFilt_setIds hδ
  refine ⟨by rw [hf]; exact h.tab, ?_, ?_, ?_, ?_, ?_, ?_⟩
  · intro fid f; rw [hf, hl, live_noFilt hδ]; exact h.live fid f
  · rw [hl, hq, hn, setIds_append, e0, List.append_nil]; exact h.le
  · rw [hl, hq, setIds_append, e0, List.append_nil]; exact h.nodup
  · intro fid hm
    rw [hl] at hm
    rw [hq, hn]
    rcases List.mem_append.1 hm with hm | hm
    · exact h.unset fid hm
    · have := hδ _ hm; simp [noFilt] at this
  · rw [hq, hn]; exact h.fifo
  · intro r hr' h0
    rw [hl, setIds_append, e0, List.append_nil]
    rcases hr r hr' with hh | hh
    · exact h.regs r hh h0
    · exact absurd hh h0

/-- Posting a handler that sets no filter. -/
theorem invF_post {s s' : St I D} {δ : List (Obs I D)} (h : InvF E s) (p : Post I D) (hp : qSet [p] = [])
    (hu : ∀ fid, p = .unsetFilter fid → fid ≤ s.lastFilter)
    (hl : s'.log = s.log ++ δ) (hδ : ∀ o ∈ δ, noFilt o = true) (hf : s'.filters = s.filters)
    (hq : s'.queue = s.queue ++ [p]) (hn : s'.lastFilter = s.lastFilter) (hr : s'.regs = s.regs) : InvF E s' := by
  have e0 := noFilt_setIds hδ
  have eq : qSet s'.queue = qSet s.queue := by rw [hq, qSet_append, hp, List.append_nil]
  refine ⟨by rw [hf]; exact h.tab, ?_, ?_, ?_, ?_, ?_, ?_⟩
  · intro fid f; rw [hf, hl, live_noFilt hδ]; exact h.live fid f
  · rw [hl, eq, hn, setIds_append, e0, List.append_nil]; exact h.le
  · rw [hl, eq, setIds_append, e0, List.append_nil]; exact h.nodup
  · intro fid hm
    rw [hl] at hm
    rw [eq, hn]
    rcases List.mem_append.1 hm with hm | hm
    · exact h.unset fid hm
    · have := hδ _ hm; simp [noFilt] at this
  · rw [hq, hn]
    intro a b fid hab
    rcases List.eq_nil_or_concat b with hb | ⟨b', x, hb⟩
    · subst hb
      have := List.append_inj' hab (by simp)
      simp at this
      exact ⟨by simp [qSet], hu fid this.2⟩
    · subst hb
      rw [List.concat_eq_append, ← List.cons_append, ← List.append_assoc] at hab
      have := List.append_inj' hab (by simp)
      obtain ⟨h1, h2⟩ := h.fifo a b' fid this.1
      have hx : x = p := by simpa using this.2.symm
      rw [List.concat_eq_append, qSet_append, hx, hp, List.append_nil]
      exact ⟨h1, h2⟩
  · rw [hr, hl, setIds_append, e0, List.append_nil]; exact h.regs

theorem invF_pop {s : St I D} (h : InvF E s) (p : Post I D) (ps : List (Post I D))
    (hq : s.queue = p :: ps) (hp : qSet [p] = []) : InvF E { s with queue := ps } := by
  have e : qSet s.queue = qSet ps := by
    rw [hq, show p :: ps = [p] ++ ps from rfl, qSet_append, hp]; rfl
  refine ⟨h.tab, h.live, ?_, ?_, ?_, ?_, h.regs⟩
  · have := h.le; rw [e] at this; exact this
  · have := h.nodup; rw [e] at this; exact this
  · have := h.unset; rw [e] at this; exact this
  · intro a b fid hab
    exact h.fifo (p :: a) b fid (by rw [hq]; simp only [] at hab; rw [hab]; rfl)

/-- A filter enters the table. -/
theorem invF_set {s s' : St I D} (h : InvF E s) (fid : Nat) (f : Filter) (δ : List (Obs I D))
    (hl : s'.log = s.log ++ .filterSet fid f :: δ) (hδ : ∀ o ∈ δ, noFilt o = true)
    (hf : s'.filters = (putFilter fid f s.filters).1)
    (hc : (s.queue = .setFilter fid f :: s'.queue ∧ s'.lastFilter = s.lastFilter) ∨
      (fid = s.lastFilter + 1 ∧ s'.queue = s.queue ∧ s'.lastFilter = s.lastFilter + 1))
    (hr : ∀ r ∈ s'.regs, r ∈ s.regs ∨ r.filterId = fid) : InvF E s' ∧ (putFilter fid f s.filters).2 = false := by
  have e0 := noFilt_setIds hδ
  have es : setIds s'.log = setIds s.log ++ [fid] := by
    rw [hl, setIds_append, show Obs.filterSet fid f :: δ = [Obs.filterSet fid f] ++ δ from rfl, setIds_append, e0]; rfl
  have fresh : fid ∉ setIds s.log := by
    rcases hc with ⟨hq, _⟩ | ⟨hq, _, _⟩
    · have := h.nodup
      rw [hq, List.nodup_append] at this
      intro hh
      exact this.2.2 fid hh fid (by simp [qSet]) rfl
    · intro hh
      have := h.le fid (by simp [hh]); omega
  have nounset : Obs.filterUnset fid ∉ s.log := by
    intro hh
    obtain ⟨h1, h2⟩ := h.unset fid hh
    rcases hc with ⟨hq, _⟩ | ⟨hq, _, _⟩
    · apply h1; rw [hq]; simp [qSet]
    · omega
  have hne : ∀ x ∈ s.filters, x.1 ≠ fid := by
    intro x hx hh
    have := (h.live x.1 x.2).1 hx
    apply fresh
    unfold setIds
    rw [List.mem_filterMap]
    exact ⟨_, this.1, by rw [← hh]⟩
  obtain ⟨hb, hperm⟩ := putFilter_fresh fid f s.filters hne
  refine ⟨⟨?_, ?_, ?_, ?_, ?_, ?_, ?_⟩, hb⟩
  · rw [hf]
    apply (hperm.map Prod.fst).nodup_iff.2
    rw [List.map_cons, List.nodup_cons]
    refine ⟨?_, h.tab⟩
    intro hh
    obtain ⟨x, hx, h'⟩ := List.mem_map.1 hh
    exact hne x hx h'
  · intro g f'
    rw [hf]
    have hset : ∀ g f', Obs.filterSet g f' ∈ δ → False := by
      intro g f' hh; have := hδ _ hh; simp [noFilt] at this
    have hun : ∀ g, Obs.filterUnset g ∈ δ → False := by
      intro g hh; have := hδ _ hh; simp [noFilt] at this
    constructor
    · intro hm
      have := hperm.subset hm
      rcases List.mem_cons.1 this with h' | h'
      · simp only [Prod.mk.injEq] at h'
        obtain ⟨rfl, rfl⟩ := h'
        rw [hl]
        refine ⟨by simp, ?_⟩
        intro hh
        simp only [List.mem_append, List.mem_cons] at hh
        rcases hh with hh | hh | hh
        · exact nounset hh
        · simp at hh
        · exact hun _ hh
      · obtain ⟨a, b⟩ := (h.live g f').1 h'
        rw [hl]
        refine ⟨by simp [a], ?_⟩
        intro hh
        simp only [List.mem_append, List.mem_cons] at hh
        rcases hh with hh | hh | hh
        · exact b hh
        · simp at hh
        · exact hun _ hh
    · rintro ⟨a, b⟩
      rw [hl] at a b
      simp only [List.mem_append, List.mem_cons, not_or] at a b
      apply hperm.symm.subset
      rcases a with a | a | a
      · exact List.mem_cons_of_mem _ ((h.live g f').2 ⟨a, b.1⟩)
      · simp at a
        obtain ⟨rfl, rfl⟩ := a
        simp
      · exact absurd a (fun hh => hset _ _ hh)
  · rw [es]
    rcases hc with ⟨hq, hn⟩ | ⟨hq, hq', hn⟩
    · rw [hn]
      intro x hx
      apply h.le x
      rw [hq]
      simp only [List.mem_append, List.mem_singleton] at hx ⊢
      rcases hx with (hx | hx) | hx
      · exact Or.inl hx
      · right; simp [qSet, hx]
      · right
        unfold qSet at hx ⊢
        rw [List.filterMap_cons]
        simp [hx]
    · rw [hn, hq']
      intro x hx
      simp only [List.mem_append, List.mem_singleton] at hx
      rcases hx with (hx | hx) | hx
      · have := h.le x (by simp [hx]); omega
      · omega
      · have := h.le x (by simp [hx]); omega
  · rw [es]
    rcases hc with ⟨hq, hn⟩ | ⟨hq, hq', hn⟩
    · have := h.nodup
      rw [hq] at this
      rw [List.append_assoc]
      exact this
    · rw [hq']
      have hnn : fid ∉ setIds s.log ++ qSet s.queue := by
        intro hh; have := h.le fid hh; omega
      have hp : setIds s.log ++ [fid] ++ qSet s.queue ~ fid :: (setIds s.log ++ qSet s.queue) := by
        rw [List.append_assoc]; exact List.perm_middle
      exact hp.nodup_iff.2 (List.nodup_cons.2 ⟨hnn, h.nodup⟩)
  · intro g hm
    rw [hl] at hm
    simp only [List.mem_append, List.mem_cons] at hm
    rcases hm with hm | hm | hm
    · obtain ⟨h1, h2⟩ := h.unset g hm
      rcases hc with ⟨hq, hn⟩ | ⟨hq, hq', hn⟩
      · rw [hn]
        refine ⟨?_, h2⟩
        intro hh
        apply h1
        rw [hq]
        unfold qSet at hh ⊢
        rw [List.filterMap_cons]
        simp [hh]
      · rw [hq', hn]; exact ⟨h1, by omega⟩
    · simp at hm
    · have := hδ _ hm; simp [noFilt] at this
  · intro a b g hab
    rcases hc with ⟨hq, hn⟩ | ⟨hq, hq', hn⟩
    · rw [hn]
      exact h.fifo (.setFilter fid f :: a) b g (by rw [hq, hab]; rfl)
    · rw [hn]
      rw [hq'] at hab
      obtain ⟨h1, h2⟩ := h.fifo a b g hab
      exact ⟨h1, by omega⟩
  · intro r hr' h0
    rw [es]
    rcases hr r hr' with hh | hh
    · exact List.mem_append_left _ (h.regs r hh h0)
    · rw [hh]; simp

/-- A filter leaves the table. -/
theorem invF_unset {s s' : St I D} (h : InvF E s) (fid : Nat) (hq : fid ∉ qSet s.queue) (hle : fid ≤ s.lastFilter)
    (hl : s'.log = s.log ++ [.filterUnset fid]) (hf : s'.filters = s.filters.filter (fun x => x.1 != fid))
    (hqq : s'.queue = s.queue) (hn : s'.lastFilter = s.lastFilter) (hr : s'.regs = s.regs) : InvF E s' := by
  have es : setIds s'.log = setIds s.log := by rw [hl, setIds_append]; simp [setIds]
  refine ⟨?_, ?_, ?_, ?_, ?_, ?_, ?_⟩
  · rw [hf]; exact h.tab.sublist (List.filter_sublist.map _)
  · intro g f
    rw [hf, List.mem_filter, h.live, hl]
    unfold Live
    simp only [List.mem_append, List.mem_singleton, not_or, reduceCtorEq, or_false, bne_iff_ne, ne_eq, Obs.filterUnset.injEq]
    rw [and_assoc]
  · rw [es, hqq, hn]; exact h.le
  · rw [es, hqq]; exact h.nodup
  · intro g hm
    rw [hl] at hm
    rw [hqq, hn]
    rcases List.mem_append.1 hm with hm | hm
    · exact h.unset g hm
    · simp at hm; subst hm; exact ⟨hq, hle⟩
  · rw [hqq, hn]; exact h.fifo
  · rw [hr, es]; exact h.regs

theorem noFilt_dup (b : Bool) : ∀ o ∈ (dupObs b : List (Obs I D)), noFilt o = true := by
  cases b <;> simp [dupObs, noFilt]

theorem noFilt_satisfy (d : D) (boom : Nat → Bool) (es : List (Entry I)) :
    ∀ o ∈ (satisfy E d boom es).log, noFilt o = true := by
  intro o ho
  obtain ⟨_, _, _, _, rfl⟩ := satisfy_log d boom es o ho
  rfl

theorem noFilt_nackLoop (n : Nack I) (boom : Nat → Bool) (es : List (Entry I)) :
    ∀ o ∈ (nackLoop (D := D) E n boom es).log, noFilt o = true := by
  intro o ho
  have := nackLoop_log n boom es o ho
  cases o <;> simp_all [nackish, noFilt]

theorem noFilt_dispatch (boom : Nat → Bool) (e : Entry I) (fs : List (Nat × Filter)) :
    ∀ o ∈ (dispatch (D := D) E boom e fs).2, noFilt o = true := by
  intro o ho
  obtain ⟨_, _, _, rfl⟩ := dispatch_log boom e fs o ho
  rfl

theorem doExpress_noFilt (boom : Nat → Bool) (s : St I D) (id : Nat) (i : I) :
    ∃ δ, (doExpress E boom s id i).log = s.log ++ δ ∧ (∀ o ∈ δ, noFilt o = true) ∧
      (doExpress E boom s id i).filters = s.filters ∧ (doExpress E boom s id i).queue = s.queue ∧
      (doExpress E boom s id i).lastFilter = s.lastFilter ∧ (doExpress E boom s id i).regs = s.regs := by
  obtain ⟨e, δ, hs, _, _, _, hd⟩ := doExpress_shape (E := E) boom s id i
  rw [hs]
  refine ⟨_, rfl, ?_, rfl, rfl, rfl, rfl⟩
  intro o ho
  rcases List.mem_cons.1 ho with ho | ho
  · subst ho; rfl
  · rcases hd with ⟨_, _, rfl⟩ | ⟨_, _, rfl⟩
    · rcases List.mem_append.1 ho with ho | ho
      · exact noFilt_dup _ _ ho
      · simp at ho; subst ho; rfl
    · rcases List.mem_append.1 ho with ho | ho
      · exact noFilt_dup _ _ ho
      · rcases List.mem_cons.1 ho with ho | ho
        · subst ho; rfl
        · exact noFilt_dispatch _ _ _ _ ho

theorem doArrive_noFilt (boom : Nat → Bool) (s : St I D) (i : I) :
    ∃ δ, (doArrive E boom s i).log = s.log ++ δ ∧ (∀ o ∈ δ, noFilt o = true) ∧
      (doArrive E boom s i).filters = s.filters ∧ (doArrive E boom s i).queue = s.queue ∧
      (doArrive E boom s i).lastFilter = s.lastFilter ∧ (doArrive E boom s i).regs = s.regs := by
  obtain ⟨e, δ, hs, _, _, _, _, hd⟩ := doArrive_shape (E := E) boom s i
  rw [hs]
  refine ⟨_, rfl, ?_, rfl, rfl, rfl, rfl⟩
  intro o ho
  rcases List.mem_cons.1 ho with ho | ho
  · subst ho; rfl
  · subst hd
    rcases List.mem_append.1 ho with ho | ho
    · exact noFilt_dup _ _ ho
    · exact noFilt_dispatch _ _ _ _ ho

theorem invF_handle {s : St I D} (h : InvF E s) (boom : Nat → Bool) (p : Post I D)
    (ps : List (Post I D)) (hq : s.queue = p :: ps) : InvF E (handle E boom { s with queue := ps } p) := by
  cases p with
  | setFilter fid f =>
    exact And.left (b := (putFilter fid f s.filters).2 = false)
      (invF_set h fid f (dupObs (putFilter fid f s.filters).2) rfl (noFilt_dup _) rfl (Or.inl ⟨hq, rfl⟩) (fun r hr => Or.inl hr))
  | unsetFilter fid =>
    obtain ⟨h1, h2⟩ := h.fifo [] ps fid (by simpa using hq)
    exact invF_unset (invF_pop h _ ps hq rfl) fid h1 h2 rfl rfl rfl rfl rfl
  | express id i =>
    have h1 := invF_pop h _ ps hq rfl
    obtain ⟨δ, a, b, c, d, e, f⟩ := doExpress_noFilt (E := E) boom { s with queue := ps } id i
    exact invF_same h1 a b c d e (by simp only [handle]; rw [f]; exact fun r hr => Or.inl hr)
  | cancel id =>
    have h1 := invF_pop h _ ps hq rfl
    exact invF_same h1 (δ := [.cancelled id]) rfl (by simp [noFilt]) rfl rfl rfl (fun r hr => Or.inl hr)
  | removeAll =>
    have h1 := invF_pop h _ ps hq rfl
    exact invF_same h1 (δ := [.cleared]) rfl (by simp [noFilt]) rfl rfl rfl (fun r hr => Or.inl hr)
  | putData d =>
    have h1 := invF_pop h _ ps hq rfl
    obtain ⟨δ, hs, hd⟩ := doPutData_shape (E := E) boom { s with queue := ps } d
    simp only [handle]
    rw [hs]
    refine invF_same h1 (δ := .putData d :: (satisfy E d boom s.pit).log ++ δ) (by simp) ?_ rfl rfl rfl (fun r hr => Or.inl hr)
    intro o ho
    rcases List.mem_append.1 ho with ho | ho
    · rcases List.mem_cons.1 ho with ho | ho
      · subst ho; rfl
      · exact noFilt_satisfy _ _ _ _ ho
    · rcases hd with rfl | rfl | rfl <;> simp at ho <;> subst ho <;> rfl
  | putNack n =>
    have h1 := invF_pop h _ ps hq rfl
    obtain ⟨δ, hs, hd⟩ := doPutNack_shape (E := E) boom { s with queue := ps } n
    simp only [handle]
    rw [hs]
    refine invF_same h1 (δ := .putNack n :: (nackLoop (D := D) E n boom s.pit).log ++ δ) (by simp) ?_ rfl rfl rfl (fun r hr => Or.inl hr)
    intro o ho
    rcases List.mem_append.1 ho with ho | ho
    · rcases List.mem_cons.1 ho with ho | ho
      · subst ho; rfl
      · exact noFilt_nackLoop _ _ _ _ ho
    · rcases hd with rfl | rfl | ⟨m, rfl⟩ <;> simp at ho <;> subst ho <;> rfl
  | unregister id =>
    have h1 := invF_pop h _ ps hq rfl
    obtain ⟨δ, fs, cs, hs, hd⟩ := doUnregister_shape { s with queue := ps } id
    simp only [handle]
    rw [hs]
    rcases hd with ⟨rfl, rfl, _⟩ | ⟨r, hr, _, _, ⟨_, rfl, rfl⟩ | ⟨h0, rfl, rfl⟩⟩
    · exact invF_same h1 rfl (by simp [noFilt]) rfl rfl rfl (fun r hr => Or.inl hr)
    · exact invF_same h1 rfl (by simp) rfl rfl rfl (fun r hr => Or.inl hr)
    · have hm := h1.regs r hr h0
      refine invF_unset h1 r.filterId ?_ (h1.le _ (List.mem_append_left _ hm)).2 rfl rfl rfl rfl rfl
      intro hh
      have := h1.nodup
      rw [List.nodup_append] at this
      exact this.2.2 _ hm _ hh rfl
  | shutdown =>
    have h1 := invF_pop h _ ps hq rfl
    exact invF_same h1 (δ := [.cleared]) rfl (by simp [noFilt]) rfl rfl rfl (by simp [handle, doShutdown])

theorem doFire_noFilt (boom : Nat → Bool) (s : St I D) (id : Nat) :
    ∃ δ, (doFire boom s id).log = s.log ++ δ ∧ (∀ o ∈ δ, noFilt o = true) ∧ (doFire boom s id).filters = s.filters ∧
      (doFire boom s id).queue = s.queue ∧ (doFire boom s id).lastFilter = s.lastFilter ∧ (doFire boom s id).regs = s.regs := by
  simp only [doFire]
  split
  · exact ⟨[], by simp, by simp, rfl, rfl, rfl, rfl⟩
  · split
    · split
      · exact ⟨_, rfl, by simp [noFilt], rfl, rfl, rfl, rfl⟩
      · exact ⟨_, rfl, by simp [noFilt], rfl, rfl, rfl, rfl⟩
    · exact ⟨[], by simp, by simp, rfl, rfl, rfl, rfl⟩

theorem invF_step {s : St I D} (h : InvF E s) (op : Op I D) : InvF E (step E s op) := by
  cases op with
  | express i => exact invF_post h (.express (s.lastPit + 1) i) rfl (by simp) (δ := [.callExpress (s.lastPit + 1) i]) rfl (by simp [noFilt]) rfl rfl rfl rfl
  | cancel id =>
    simp only [step]
    split
    · exact invF_post h (.cancel id) rfl (by simp) (δ := [.callCancel id]) rfl (by simp [noFilt]) rfl rfl rfl rfl
    · exact h
  | removeAll => exact invF_post h .removeAll rfl (by simp) (δ := []) (by simp [step]) (by simp) rfl rfl rfl rfl
  | putData d => exact invF_post h (.putData d) rfl (by simp) (δ := []) (by simp [step]) (by simp) rfl rfl rfl rfl
  | putNack n => exact invF_post h (.putNack n) rfl (by simp) (δ := []) (by simp [step]) (by simp) rfl rfl rfl rfl
  | setFilter f =>
    have e2 : qSet (s.queue ++ [.setFilter (s.lastFilter + 1) f]) = qSet s.queue ++ [s.lastFilter + 1] := by
      rw [qSet_append]; rfl
    refine ⟨h.tab, h.live, ?_, ?_, ?_, ?_, h.regs⟩
    · simp only [step]
      rw [e2, ← List.append_assoc]
      intro x hx
      rcases List.mem_append.1 hx with hx | hx
      · have := h.le x hx; omega
      · simp at hx; omega
    · simp only [step]
      rw [e2, ← List.append_assoc, List.nodup_append]
      refine ⟨h.nodup, by simp, ?_⟩
      intro a ha b hb hab
      simp at hb
      have := h.le a ha
      omega
    · simp only [step]
      rw [e2]
      intro fid hm
      obtain ⟨h1, h2⟩ := h.unset fid hm
      refine ⟨?_, by omega⟩
      simp only [List.mem_append, List.mem_singleton, not_or]
      exact ⟨h1, by omega⟩
    · simp only [step]
      intro a b fid hab
      rcases List.eq_nil_or_concat b with hb | ⟨b', x, hb⟩
      · subst hb
        have := List.append_inj' hab (by simp)
        simp at this
      · subst hb
        rw [List.concat_eq_append, ← List.cons_append, ← List.append_assoc] at hab
        have := List.append_inj' hab (by simp)
        obtain ⟨h1, h2⟩ := h.fifo a b' fid this.1
        have hx : x = .setFilter (s.lastFilter + 1) f := by simpa using this.2.symm
        rw [List.concat_eq_append, qSet_append, hx]
        refine ⟨?_, by omega⟩
        simp only [List.mem_append, not_or]
        refine ⟨h1, ?_⟩
        simp [qSet]
        omega
  | unsetFilter fid =>
    simp only [step]
    split
    · rename_i hc
      exact invF_post h (.unsetFilter fid) rfl (by intro g hg; simp at hg; omega) (δ := [.callUnset fid]) rfl (by simp [noFilt]) rfl rfl rfl rfl
    · exact h
  | register pfx f => exact invF_same h (δ := [.callRegister (s.lastReg + 1)]) rfl (by simp [noFilt]) rfl rfl rfl (fun r hr => Or.inl hr)
  | unregister id =>
    simp only [step]
    split
    · exact invF_post h (.unregister id) rfl (by simp) (δ := [.callUnregister id]) rfl (by simp [noFilt]) rfl rfl rfl rfl
    · exact h
  | shutdown => exact invF_post h .shutdown rfl (by simp) (δ := []) (by simp [step]) (by simp) rfl rfl rfl rfl
  | run boom =>
    simp only [step]
    split
    · exact h
    · rename_i p ps hq
      exact invF_handle h boom p ps hq
  | fire id boom =>
    obtain ⟨δ, a, b, c, d, e, f⟩ := doFire_noFilt boom s id
    exact invF_same h a b c d e (by simp only [step]; rw [f]; exact fun r hr => Or.inl hr)
  | recvInterest i boom =>
    obtain ⟨δ, a, b, c, d, e, f⟩ := doArrive_noFilt (E := E) boom s i
    exact invF_same h a b c d e (by simp only [step]; rw [f]; exact fun r hr => Or.inl hr)
  | recvData d boom =>
    refine invF_same h (δ := .gotData d :: (satisfy E d boom s.pit).log) rfl ?_ rfl rfl rfl (fun r hr => Or.inl hr)
    intro o ho
    rcases List.mem_cons.1 ho with ho | ho
    · subst ho; rfl
    · exact noFilt_satisfy _ _ _ _ ho
  | recvNack n boom =>
    refine invF_same h (δ := .gotNack n :: (nackLoop (D := D) E n boom s.pit).log) rfl ?_ rfl rfl rfl (fun r hr => Or.inl hr)
    intro o ho
    rcases List.mem_cons.1 ho with ho | ho
    · subst ho; rfl
    · exact noFilt_nackLoop _ _ _ _ ho
  | reply k ok =>
    simp only [step, doReply]
    split
    · exact h
    · split
      · split
        · refine invF_same h rfl (by simp [noFilt]) rfl rfl rfl ?_
          intro r hr
          rcases List.mem_append.1 hr with hr | hr
          · exact Or.inl hr
          · simp at hr; subst hr; exact Or.inr rfl
        · rename_i rid _ _ _ f _
          refine And.left (b := (putFilter (s.lastFilter + 1) f s.filters).2 = false)
            (invF_set h (s.lastFilter + 1) f (dupObs (putFilter (s.lastFilter + 1) f s.filters).2 ++ [.regOk rid]) (by simp) ?_ rfl (Or.inr ⟨rfl, rfl, rfl⟩) ?_)
          · intro o ho
            rcases List.mem_append.1 ho with ho | ho
            · exact noFilt_dup _ _ ho
            · simp at ho; subst ho; rfl
          · intro r hr
            rcases List.mem_append.1 hr with hr | hr
            · exact Or.inl hr
            · simp at hr; subst hr; exact Or.inr rfl
      · exact invF_same h rfl (by simp [noFilt]) rfl rfl rfl (fun r hr => Or.inl hr)
    · split
      · exact invF_same h rfl (by simp [noFilt]) rfl rfl rfl (fun r hr => Or.inl (List.mem_filter.1 hr).1)
      · exact invF_same h rfl (by simp [noFilt]) rfl rfl rfl (fun r hr => Or.inl hr)
  | advance dt => exact invF_same h (δ := []) (by simp [step]) (by simp) rfl rfl rfl (fun r hr => Or.inl hr)
  | unwind => exact invF_same h (δ := [.cleared]) rfl (by simp [noFilt]) rfl rfl rfl (by simp [step, doShutdown])

theorem invF_run {s : St I D} (h : InvF E s) (ops : List (Op I D)) : InvF E (run E s ops) := by
  induction ops generalizing s with
  | nil => exact h
  | cons op ops ih => exact ih (invF_step h op)

end Ndn.Face
