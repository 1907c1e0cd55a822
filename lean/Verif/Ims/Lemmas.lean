import Verif.Ims.Spec
import Verif.Interest.Props
/-
Lemmas on in-memory storages.
-/
namespace Ndn.Ims
open Ndn.Name Ndn.Name.Spec Ndn.Interest Spec

/-! ### Order -/

theorem compLt_iff (a b : Comp) : compLt a b = true ↔ CompLt a b := by
  rw [CompLt_iff]
  simp [compLt]

theorem nameLt_iff (a b : List Comp) : nameLt a b = true ↔ NameLt a b := by
  induction a generalizing b with
  | nil => cases b <;> simp [nameLt]
  | cons x a ih =>
    cases b with
    | nil => simp [nameLt]
    | cons y b =>
      rw [NameLt_cons]
      simp [nameLt, compLt_iff, ih]

theorem not_lt_of_prefix {a b : List Comp} (h : a <+: b) : ¬ NameLt b a := by
  obtain ⟨t, rfl⟩ := h
  intro h
  cases t with
  | nil => rw [List.append_nil] at h; exact NameLt_irrefl _ h
  | cons c t =>
    have h2 : NameLt a (a ++ c :: t) := by
      clear h
      induction a with
      | nil => simp
      | cons x a ih => rw [List.cons_append, NameLt_cons]; exact Or.inr ⟨rfl, ih⟩
    exact NameLt_irrefl _ (NameLt_trans h h2)

/-- Names with a prefix are contiguous. -/
theorem prefix_contig {n x y : List Comp} (h1 : ¬ NameLt x n) (h2 : ¬ NameLt y x) (h3 : n <+: y) : n <+: x := by
  induction n generalizing x y with
  | nil => exact List.nil_prefix
  | cons c n ih =>
    obtain ⟨t, rfl⟩ := h3
    cases x with
    | nil => exact absurd (NameLt_nil_cons c n) h1
    | cons d x =>
      rw [List.cons_append, NameLt_cons] at h2
      rw [NameLt_cons] at h1
      have hdc : d = c := by
        rcases CompLt_total d c with h | h | h
        · exact absurd (Or.inl h) h1
        · exact h
        · exact absurd (Or.inl h) h2
      subst hdc
      have := ih (x := x) (y := n ++ t) (fun h => h1 (Or.inr ⟨rfl, h⟩)) (fun h => h2 (Or.inr ⟨rfl, h⟩)) ⟨t, rfl⟩
      obtain ⟨u, hu⟩ := this
      exact ⟨u, by rw [List.cons_append, hu]⟩

abbrev Tag := Entry × Option Nat × Nat

def itemOf (t : Tag) : Item := ⟨t.1.pkt.full, t.2.1, t.2.2⟩

/-- Structural invariant. -/
structure Inv (s : St) : Prop where
  ub : s.ub = false
  n : s.nPackets = s.cache.length
  cap : s.cache.length + s.free.length = s.capacity
  lim : (minCapacity ≤ s.capacity ∨ s.capacity = s.limit) ∧ 1 ≤ s.capacity ∧ s.capacity ≤ s.limit
  sorted : s.cache.Pairwise (fun a b => nameLt a.pkt.full b.pkt.full = true)
  ids : (s.cache.map (fun e => e.slot.id) ++ s.free.map Slot.id).Nodup
  idLt : ∀ i ∈ s.cache.map (fun e => e.slot.id) ++ s.free.map Slot.id, i < s.nextSlot
  evs : (s.events.map Event.ev).Nodup
  evLt : ∀ x ∈ s.events, x.ev < s.nextEv
  evTarget : ∀ x ∈ s.events, ∃ e ∈ s.cache, e.slot.id = x.target ∧ e.slot.handle = some x.ev
  handleLt : ∀ e ∈ s.cache, ∀ h, e.slot.handle = some h → h < s.nextEv
  handles : ∀ e ∈ s.cache, ∀ e' ∈ s.cache, ∀ h, e.slot.handle = some h → e'.slot.handle = some h → e = e'
  freeHandles : ∀ f ∈ s.free, f.handle = none
  digests : ∀ e ∈ s.cache, e.pkt.digest.length = 32

def FreshRel (s : St) (t : Tag) : Prop :=
  match t.2.1 with
  | none => t.1.fresh = true ∧ ∀ x ∈ s.events, x.target ≠ t.1.slot.id
  | some d => (t.1.fresh = true ∧ ∃ x ∈ s.events, x.target = t.1.slot.id ∧ x.due = d) ∨
      (t.1.fresh = false ∧ d ≤ s.now ∧ ∀ x ∈ s.events, x.target ≠ t.1.slot.id)

def CleanupRel (s : St) (T : List Tag) : Prop :=
  match s.policy with
  | .fifo | .lru => s.cleanup.map Prod.fst = T.map (fun t => t.1.slot.id)
  | .lfu => s.cleanup.Perm (T.map (fun t => (t.1.slot.id, t.2.2))) ∧ s.cleanup.Pairwise (fun a b => a.2 ≤ b.2)
  | .persistent => s.cleanup = []

structure Rel (s : St) (T : List Tag) : Prop where
  perm : (T.map Prod.fst).Perm s.cache
  cleanup : CleanupRel s T
  fresh : ∀ t ∈ T, FreshRel s t

theorem Inv.cacheIds {s : St} (h : Inv s) : (s.cache.map (fun e => e.slot.id)).Nodup := (List.nodup_append.mp h.ids).1

theorem eq_of_map_nodup {α β : Type} {f : α → β} {l : List α} (h : (l.map f).Nodup) {a b : α} (ha : a ∈ l) (hb : b ∈ l)
    (he : f a = f b) : a = b := by
  induction l with
  | nil => cases ha
  | cons x l ih =>
    rw [List.map_cons, List.nodup_cons] at h
    rcases List.mem_cons.mp ha with hax | hal
    · rcases List.mem_cons.mp hb with hbx | hbl
      · rw [hax, hbx]
      · exact absurd (by rw [← hax, he]; exact List.mem_map_of_mem hbl) h.1
    · rcases List.mem_cons.mp hb with hbx | hbl
      · exact absurd (by rw [← hbx, ← he]; exact List.mem_map_of_mem hal) h.1
      · exact ih h.2 hal hbl

theorem Inv.idInj {s : St} (h : Inv s) {a b : Entry} (ha : a ∈ s.cache) (hb : b ∈ s.cache) (he : a.slot.id = b.slot.id) : a = b :=
  eq_of_map_nodup h.cacheIds ha hb he

theorem fullNodup {s : St} (h : Inv s) : (s.cache.map (fun e => e.pkt.full)).Nodup := by
  have := h.sorted
  unfold List.Nodup
  rw [List.pairwise_map]
  refine this.imp ?_
  intro a b hab he
  rw [nameLt_iff, he] at hab
  exact NameLt_irrefl _ hab

theorem Inv.fullInj {s : St} (h : Inv s) {a b : Entry} (ha : a ∈ s.cache) (hb : b ∈ s.cache) (he : a.pkt.full = b.pkt.full) : a = b :=
  eq_of_map_nodup (fullNodup h) ha hb he

/-! ### Removing an entry -/

/-- An entry leaves the storage. -/
def remove (s : St) (e : Entry) : St := freeEntry (beforeErase s e.slot.id) e

theorem filter_ne_length {α β : Type} [DecidableEq β] {f : α → β} {l : List α} (h : (l.map f).Nodup) {a : α} (ha : a ∈ l) :
    (l.filter (fun x => f x ≠ f a)).length + 1 = l.length := by
  induction l with
  | nil => cases ha
  | cons x l ih =>
    rw [List.map_cons, List.nodup_cons] at h
    rcases List.mem_cons.mp ha with rfl | ha
    · rw [List.filter_cons_of_neg (by simp), List.filter_eq_self.mpr, List.length_cons]
      intro y hy
      simp only [ne_eq, decide_not, Bool.not_eq_eq_eq_not, Bool.not_true, decide_eq_false_iff_not]
      intro he
      exact h.1 (he ▸ List.mem_map_of_mem hy)
    · have hx : f x ≠ f a := fun he => h.1 (he ▸ List.mem_map_of_mem ha)
      rw [List.filter_cons_of_pos (by simpa using hx), List.length_cons, ih h.2 ha, List.length_cons]

theorem remove_inv {s : St} (h : Inv s) {e : Entry} (he : e ∈ s.cache) : Inv (remove s e) := by
  have hlen := filter_ne_length h.cacheIds he
  have hsub : ∀ x ∈ (remove s e).cache, x ∈ s.cache := fun x hx => (List.mem_filter.mp hx).1
  refine ⟨h.ub, ?_, ?_, h.lim, h.sorted.sublist List.filter_sublist, ?_, ?_, ?_, ?_, ?_, ?_, ?_, ?_, ?_⟩
  · have := h.n
    simp only [remove, freeEntry, beforeErase]
    omega
  · have := h.cap
    simp only [remove, freeEntry, beforeErase, List.length_cons]
    omega
  · simp only [remove, freeEntry, beforeErase, List.map_cons]
    obtain ⟨h1, h2, h3⟩ := List.nodup_append.mp h.ids
    refine List.nodup_append.mpr ⟨h1.sublist (List.Sublist.map _ List.filter_sublist), ?_, ?_⟩
    · refine List.nodup_cons.mpr ⟨?_, h2⟩
      intro hm
      exact h3 _ (List.mem_map_of_mem he) _ hm rfl
    · intro i hi j hj hij
      subst hij
      obtain ⟨x, hx, rfl⟩ := List.mem_map.mp hi
      obtain ⟨hx1, hx2⟩ := List.mem_filter.mp hx
      rcases List.mem_cons.mp hj with hj | hj
      · simp [hj] at hx2
      · exact h3 _ (List.mem_map_of_mem hx1) _ hj rfl
  · intro i hi
    apply h.idLt
    simp only [remove, freeEntry, beforeErase, List.map_cons, List.mem_append, List.mem_cons] at hi ⊢
    rcases hi with hi | hi | hi
    · obtain ⟨x, hx, rfl⟩ := List.mem_map.mp hi
      exact Or.inl (List.mem_map_of_mem (List.mem_filter.mp hx).1)
    · rw [hi]; exact Or.inl (List.mem_map_of_mem he)
    · exact Or.inr hi
  · exact h.evs.sublist (List.Sublist.map _ List.filter_sublist)
  · exact fun x hx => h.evLt x (List.mem_filter.mp hx).1
  · intro x hx
    obtain ⟨hx1, hx2⟩ := List.mem_filter.mp hx
    obtain ⟨e', he', h1, h2⟩ := h.evTarget x hx1
    refine ⟨e', List.mem_filter.mpr ⟨he', ?_⟩, h1, h2⟩
    simp only [ne_eq, decide_not, Bool.not_eq_eq_eq_not, Bool.not_true, decide_eq_false_iff_not]
    intro hid
    have := h.idInj he' he hid
    subst this
    simp [h2] at hx2
  · exact fun x hx => h.handleLt x (hsub x hx)
  · exact fun x hx y hy => h.handles x (hsub x hx) y (hsub y hy)
  · intro f hf
    rcases List.mem_cons.mp hf with rfl | hf
    · rfl
    · exact h.freeHandles f hf
  · exact fun x hx => h.digests x (hsub x hx)

theorem Rel.mem {s : St} {T : List Tag} (h : Rel s T) {t : Tag} (ht : t ∈ T) : t.1 ∈ s.cache :=
  h.perm.mem_iff.mp (List.mem_map_of_mem ht)

theorem Rel.tagIds {s : St} {T : List Tag} (hi : Inv s) (h : Rel s T) : (T.map (fun t => t.1.slot.id)).Nodup := by
  have : (T.map (fun t => t.1.slot.id)).Perm (s.cache.map (fun e => e.slot.id)) := by
    have := h.perm.map (fun e : Entry => e.slot.id)
    rw [List.map_map] at this
    exact this
  exact this.nodup_iff.mpr hi.cacheIds

theorem filter_map_id {α : Type} (f : α → Nat) (i : Nat) (l : List α) :
    (l.filter (fun x => f x ≠ i)).map f = (l.map f).filter (fun x => x ≠ i) := by
  rw [List.filter_map]
  rfl

theorem remove_rel {s : St} {T : List Tag} (hi : Inv s) (h : Rel s T) {e : Entry} (he : e ∈ s.cache) :
    Rel (remove s e) (T.filter (fun t => t.1.slot.id ≠ e.slot.id)) := by
  refine ⟨?_, ?_, ?_⟩
  · have := h.perm.filter (fun x : Entry => decide (x.slot.id ≠ e.slot.id))
    rw [List.filter_map] at this
    exact this
  · have hc := h.cleanup
    unfold CleanupRel at hc ⊢
    have hp : (remove s e).policy = s.policy := rfl
    rw [hp]
    simp only [remove, freeEntry, beforeErase]
    cases hpol : s.policy <;> simp only [hpol] at hc ⊢
    · rw [filter_map_id Prod.fst, filter_map_id (fun t : Tag => t.1.slot.id), hc]
    · rw [filter_map_id Prod.fst, filter_map_id (fun t : Tag => t.1.slot.id), hc]
    · refine ⟨?_, hc.2.sublist List.filter_sublist⟩
      have := hc.1.filter (fun x : Nat × Nat => decide (x.1 ≠ e.slot.id))
      rw [List.filter_map] at this
      exact this
    · rw [hc]; rfl
  · intro t ht
    obtain ⟨ht1, ht2⟩ := List.mem_filter.mp ht
    have ht2' : t.1.slot.id ≠ e.slot.id := by simpa using ht2
    have hf := h.fresh t ht1
    have hsub : ∀ x ∈ (remove s e).events, x ∈ s.events := fun x hx => (List.mem_filter.mp hx).1
    unfold FreshRel at hf ⊢
    cases hd : t.2.1 with
    | none =>
      rw [hd] at hf
      exact ⟨hf.1, fun x hx => hf.2 x (hsub x hx)⟩
    | some d =>
      rw [hd] at hf
      rcases hf with ⟨h1, x, hx, h2, h3⟩ | ⟨h1, h2, h3⟩
      · refine Or.inl ⟨h1, x, List.mem_filter.mpr ⟨hx, ?_⟩, h2, h3⟩
        simp only [ne_eq, decide_not, Bool.not_eq_eq_eq_not, Bool.not_true, decide_eq_false_iff_not]
        intro heq
        obtain ⟨e', he', h4, h5⟩ := hi.evTarget x hx
        have hh := hi.handles e he e' he' x.ev heq.symm h5
        subst hh
        exact ht2' (h2.symm.trans h4.symm)
      · exact Or.inr ⟨h1, h2, fun x hx => h3 x (hsub x hx)⟩

/-! ### Eviction -/

theorem find_full {s : St} (h : Inv s) {e : Entry} (he : e ∈ s.cache) :
    s.cache.find? (fun x => x.pkt.full = e.pkt.full) = some e := by
  cases hf : s.cache.find? (fun x => x.pkt.full = e.pkt.full) with
  | none =>
    have := List.find?_eq_none.mp hf e he
    simp at this
  | some x =>
    have h1 := List.find?_some hf
    have h2 := List.mem_of_find?_eq_some hf
    rw [h.fullInj h2 he (by simpa using h1)]

theorem find_id {s : St} (h : Inv s) {e : Entry} (he : e ∈ s.cache) :
    s.cache.find? (fun x => x.slot.id = e.slot.id) = some e := by
  cases hf : s.cache.find? (fun x => x.slot.id = e.slot.id) with
  | none =>
    have := List.find?_eq_none.mp hf e he
    simp at this
  | some x =>
    have h1 := List.find?_some hf
    have h2 := List.mem_of_find?_eq_some hf
    rw [h.idInj h2 he (by simpa using h1)]

theorem Rel.length {s : St} {T : List Tag} (h : Rel s T) : T.length = s.cache.length := by
  have := h.perm.length_eq
  simpa using this

theorem cleanup_nodup {s : St} {T : List Tag} (hi : Inv s) (h : Rel s T) : (s.cleanup.map Prod.fst).Nodup := by
  have hc := h.cleanup
  have ht := Rel.tagIds hi h
  unfold CleanupRel at hc
  cases hpol : s.policy <;> simp only [hpol] at hc
  · rw [hc]; exact ht
  · rw [hc]; exact ht
  · have := hc.1.map Prod.fst
    rw [List.map_map] at this
    exact this.nodup_iff.mpr ht
  · rw [hc]; exact List.nodup_nil

/-- An eviction takes the first entry of the cleanup index. -/
theorem evict_spec {s : St} {T : List Tag} (hi : Inv s) (h : Rel s T) (hp : s.policy ≠ .persistent) (hne : s.cache ≠ []) :
    ∃ t ∈ T, MayEvict s.policy t.1.pkt.full (T.map itemOf) ∧
      evictItem s = (true, { remove s t.1 with log := s.log ++ [.evicted t.1.pkt.full] }) := by
  have hc := h.cleanup
  have hcn := cleanup_nodup hi h
  have hlen := h.length
  have hTne : T ≠ [] := by
    intro hT; rw [hT] at hlen
    exact hne (List.length_eq_zero_iff.mp hlen.symm)
  -- the head of the cleanup index and its tag
  have key : ∃ t ∈ T, ∃ f rest, s.cleanup = (t.1.slot.id, f) :: rest ∧ MayEvict s.policy t.1.pkt.full (T.map itemOf) := by
    unfold CleanupRel at hc
    cases hpol : s.policy <;> simp only [hpol] at hc
    · cases hT : T with
      | nil => exact absurd hT hTne
      | cons t T' =>
        rw [hT] at hc
        cases hcl : s.cleanup with
        | nil => rw [hcl] at hc; simp at hc
        | cons x rest =>
          rw [hcl] at hc
          simp only [List.map_cons, List.cons.injEq] at hc
          refine ⟨t, List.mem_cons_self .., x.2, rest, by rw [← hc.1], ?_⟩
          exact ⟨itemOf t, rfl, rfl⟩
    · cases hT : T with
      | nil => exact absurd hT hTne
      | cons t T' =>
        rw [hT] at hc
        cases hcl : s.cleanup with
        | nil => rw [hcl] at hc; simp at hc
        | cons x rest =>
          rw [hcl] at hc
          simp only [List.map_cons, List.cons.injEq] at hc
          refine ⟨t, List.mem_cons_self .., x.2, rest, by rw [← hc.1], ?_⟩
          exact ⟨itemOf t, rfl, rfl⟩
    · obtain ⟨hc1, hc2⟩ := hc
      cases hcl : s.cleanup with
      | nil =>
        rw [hcl] at hc1
        have := hc1.length_eq
        rw [List.length_map] at this
        exact absurd (List.length_eq_zero_iff.mp this.symm) hTne
      | cons x rest =>
        have hx : x ∈ T.map (fun t => (t.1.slot.id, t.2.2)) := hc1.mem_iff.mp (by rw [hcl]; exact List.mem_cons_self ..)
        obtain ⟨t, ht, rfl⟩ := List.mem_map.mp hx
        refine ⟨t, ht, t.2.2, rest, rfl, itemOf t, List.mem_map_of_mem ht, rfl, ?_⟩
        intro y hy
        obtain ⟨u, hu, rfl⟩ := List.mem_map.mp hy
        have hu' : (u.1.slot.id, u.2.2) ∈ s.cleanup := hc1.mem_iff.mpr (List.mem_map_of_mem hu)
        rw [hcl] at hu' hc2
        rcases List.mem_cons.mp hu' with he | hm
        · have : u.2.2 = t.2.2 := congrArg (fun p : Nat × Nat => p.2) he
          simp only [itemOf]
          omega
        · exact (List.pairwise_cons.mp hc2).1 _ hm
    · exact absurd hpol hp
  obtain ⟨t, ht, f, rest, hcl, hmay⟩ := key
  refine ⟨t, ht, hmay, ?_⟩
  have hmem := h.mem ht
  have hrest : s.cleanup.filter (fun x => x.1 ≠ t.1.slot.id) = rest := by
    rw [hcl] at hcn ⊢
    rw [List.map_cons, List.nodup_cons] at hcn
    have hcn1 : t.1.slot.id ∉ rest.map Prod.fst := hcn.1
    rw [List.filter_cons_of_neg (by simp), List.filter_eq_self]
    intro x hx
    simp only [ne_eq, decide_not, Bool.not_eq_eq_eq_not, Bool.not_true, decide_eq_false_iff_not]
    intro hxe
    exact hcn1 (by rw [← hxe]; exact List.mem_map_of_mem (f := Prod.fst) hx)
  have hev : eraseImpl s t.1.pkt.full = freeEntry s t.1 := by
    unfold eraseImpl
    rw [find_full hi hmem]
  unfold evictItem
  rw [hcl]
  cases hpol : s.policy
  case persistent => exact absurd hpol hp
  all_goals
    simp only [find_id hi hmem, hev]
    simp only [remove, freeEntry, beforeErase, hrest]

/-! ### Capacity -/

theorem setCapacity_eq {s : St} {c : Nat} (h : s.nPackets ≤ max c minCapacity) :
    setCapacity s c = if max c minCapacity ≥ s.capacity then
        { s with capacity := max c minCapacity,
                 free := newSlots s.nextSlot (max c minCapacity - s.capacity) ++ s.free,
                 nextSlot := s.nextSlot + (max c minCapacity - s.capacity) }
      else { s with capacity := max c minCapacity, free := s.free.drop (s.capacity - max c minCapacity),
                    ub := s.ub || decide (s.free.length < s.capacity - max c minCapacity) } := by
  have hl : evictLoop (max c minCapacity) s.nPackets { s with capacity := max c minCapacity } =
      (false, { s with capacity := max c minCapacity }) := by
    generalize hk : s.nPackets = k at h
    cases k with
    | zero => simp [evictLoop, hk]
    | succ k =>
      simp only [evictLoop]
      rw [if_neg (by omega)]
  unfold setCapacity
  simp only [hl]
  rfl

theorem newSlots_ids (next n : Nat) : (newSlots next n).map Slot.id = (List.range n).map (fun i => next + i) := by
  simp [newSlots, List.map_map, Function.comp_def]

theorem newSlots_length (next n : Nat) : (newSlots next n).length = n := by simp [newSlots]

theorem setCapacity_inv {s : St} (h : Inv s) {c : Nat} (h1 : s.nPackets ≤ max c minCapacity) (h2 : max c minCapacity ≤ s.limit) :
    Inv (setCapacity s c) := by
  rw [setCapacity_eq h1]
  have hn := h.n
  have hcap := h.cap
  split
  · rename_i hge
    refine ⟨h.ub, h.n, ?_, ⟨Or.inl (Nat.le_max_right c minCapacity), Nat.le_trans (show 1 ≤ minCapacity by decide) (Nat.le_max_right c minCapacity), h2⟩, h.sorted, ?_, ?_, h.evs, h.evLt, h.evTarget, h.handleLt, h.handles, ?_, h.digests⟩
    · simp only [List.length_append, newSlots_length]; omega
    · simp only [List.map_append, newSlots_ids]
      obtain ⟨n1, n2, n3⟩ := List.nodup_append.mp h.ids
      have hold : ∀ i ∈ s.cache.map (fun e => e.slot.id) ++ s.free.map Slot.id, i < s.nextSlot := h.idLt
      refine List.nodup_append.mpr ⟨n1, List.nodup_append.mpr ⟨?_, n2, ?_⟩, ?_⟩
      · unfold List.Nodup
        rw [List.pairwise_map]
        exact (List.nodup_range).imp (by intro a b hab; omega)
      · intro a ha b hb hab
        obtain ⟨i, _, rfl⟩ := List.mem_map.mp ha
        have := hold b (List.mem_append_right _ hb)
        omega
      · intro a ha b hb hab
        subst hab
        rcases List.mem_append.mp hb with hb | hb
        · obtain ⟨i, _, rfl⟩ := List.mem_map.mp hb
          have := hold _ (List.mem_append_left _ ha)
          omega
        · exact n3 _ ha _ hb rfl
    · intro i hi
      simp only [List.map_append, newSlots_ids, List.mem_append] at hi ⊢
      rcases hi with hi | hi | hi
      · have := h.idLt i (List.mem_append_left _ hi); omega
      · obtain ⟨j, hj, rfl⟩ := List.mem_map.mp hi
        have := List.mem_range.mp hj
        omega
      · have := h.idLt i (List.mem_append_right _ hi); omega
    · intro f hf
      rcases List.mem_append.mp hf with hf | hf
      · simp only [newSlots, List.mem_map] at hf
        obtain ⟨i, _, rfl⟩ := hf
        rfl
      · exact h.freeHandles f hf
  · rename_i hge
    refine ⟨?_, h.n, ?_, ⟨Or.inl (Nat.le_max_right c minCapacity), Nat.le_trans (show 1 ≤ minCapacity by decide) (Nat.le_max_right c minCapacity), h2⟩, h.sorted, ?_, ?_, h.evs, h.evLt, h.evTarget, h.handleLt, h.handles, ?_, h.digests⟩
    · simp only [h.ub, Bool.false_or, decide_eq_false_iff_not]; omega
    · simp only [List.length_drop]; omega
    · refine h.ids.sublist ?_
      exact List.Sublist.append_left (List.Sublist.map _ (List.drop_sublist _ _)) _
    · intro i hi
      apply h.idLt
      rcases List.mem_append.mp hi with hi | hi
      · exact List.mem_append_left _ hi
      · exact List.mem_append_right _ (List.Sublist.subset (List.Sublist.map _ (List.drop_sublist _ _)) hi)
    · exact fun f hf => h.freeHandles f (List.mem_of_mem_drop hf)

theorem setCapacity_same {s : St} {c : Nat} (h1 : s.nPackets ≤ max c minCapacity) :
    (setCapacity s c).cache = s.cache ∧ (setCapacity s c).cleanup = s.cleanup ∧ (setCapacity s c).events = s.events ∧
    (setCapacity s c).policy = s.policy ∧ (setCapacity s c).now = s.now ∧ (setCapacity s c).log = s.log ∧
    (setCapacity s c).nPackets = s.nPackets ∧ (setCapacity s c).limit = s.limit ∧ (setCapacity s c).capacity = max c minCapacity ∧
    (setCapacity s c).hasSched = s.hasSched ∧ (setCapacity s c).nextEv = s.nextEv := by
  rw [setCapacity_eq h1]
  split <;> exact ⟨rfl, rfl, rfl, rfl, rfl, rfl, rfl, rfl, rfl, rfl, rfl⟩

theorem Rel.congr {s s' : St} {T : List Tag} (h : Rel s T) (h1 : s'.cache = s.cache) (h2 : s'.cleanup = s.cleanup)
    (h3 : s'.events = s.events) (h4 : s'.policy = s.policy) (h5 : s.now ≤ s'.now) : Rel s' T := by
  refine ⟨by rw [h1]; exact h.perm, ?_, ?_⟩
  · have := h.cleanup
    unfold CleanupRel at this ⊢
    rw [h2, h4]; exact this
  · intro t ht
    have := h.fresh t ht
    unfold FreshRel at this ⊢
    rw [h3]
    cases hd : t.2.1 with
    | none => rw [hd] at this; exact this
    | some d =>
      rw [hd] at this
      rcases this with h | ⟨a, b, c⟩
      · exact Or.inl h
      · exact Or.inr ⟨a, by omega, c⟩

/-! ### Making room and storing -/

theorem makeRoom_spec {s : St} {T : List Tag} (hi : Inv s) (h : Rel s T) (hp : s.policy = .persistent → s.nPackets < s.limit) :
    ∃ obs T', (makeRoom s).log = s.log ++ obs ∧ obsRun s.policy false (T.map itemOf) obs = some (T'.map itemOf) ∧
      Inv (makeRoom s) ∧ Rel (makeRoom s) T' ∧ (makeRoom s).free ≠ [] ∧ (∀ t ∈ T', t ∈ T) ∧
      (makeRoom s).policy = s.policy ∧ (makeRoom s).limit = s.limit ∧ (makeRoom s).now = s.now ∧
      (makeRoom s).hasSched = s.hasSched ∧ (makeRoom s).nextEv = s.nextEv ∧ (makeRoom s).nPackets ≤ s.nPackets ∧
      (obs = [] ∨ s.nPackets = s.limit ∧ ∃ v, obs = [.evicted v]) := by
  have hn := hi.n
  have hcap := hi.cap
  have hlim := hi.lim
  by_cases hfull : isFull s = true
  · have hfull' : s.capacity ≤ s.nPackets := by simpa [isFull] using hfull
    by_cases hr : s.limit = s.capacity
    · -- evict
      have hm : makeRoom s = (evictItem s).2 := by
        unfold makeRoom
        simp [hr, hfull]
      have hpol : s.policy ≠ .persistent := by
        intro hper
        have := hp hper
        omega
      have hne : s.cache ≠ [] := by
        intro h0
        rw [h0] at hn
        simp only [minCapacity, List.length_nil] at hn hlim
        omega
      obtain ⟨t, ht, hmay, he⟩ := evict_spec hi h hpol hne
      rw [hm, he]
      have hmem := h.mem ht
      have hinv := remove_inv hi hmem
      have hrel := remove_rel hi h hmem
      refine ⟨[.evicted t.1.pkt.full], T.filter (fun u => u.1.slot.id ≠ t.1.slot.id), rfl, ?_, ?_, ?_, ?_, ?_, rfl, rfl, rfl, rfl, rfl, ?_, ?_⟩
      · simp only [obsRun, obsStep]
        rw [if_pos hmay]
        simp only [Option.bind_some, Option.some.injEq]
        rw [List.filter_map]
        congr 1
        apply List.filter_congr
        intro u hu
        simp only [Function.comp, itemOf]
        have : u.1.pkt.full = t.1.pkt.full ↔ u.1.slot.id = t.1.slot.id := by
          constructor
          · intro hf; rw [hi.fullInj (h.mem hu) hmem hf]
          · intro hf; rw [hi.idInj (h.mem hu) hmem hf]
        simp [this]
      · exact ⟨hinv.ub, hinv.n, hinv.cap, hinv.lim, hinv.sorted, hinv.ids, hinv.idLt, hinv.evs, hinv.evLt, hinv.evTarget,
          hinv.handleLt, hinv.handles, hinv.freeHandles, hinv.digests⟩
      · exact hrel.congr rfl rfl rfl rfl (Nat.le_refl _)
      · simp [remove, freeEntry]
      · intro u hu; exact (List.mem_filter.mp hu).1
      · simp only [remove, freeEntry, beforeErase]; omega
      · exact Or.inr ⟨by omega, _, rfl⟩
    · -- grow
      have hle : s.nPackets ≤ max (min (2 * s.capacity) s.limit) minCapacity := by
        have : s.nPackets ≤ s.capacity := by omega
        omega
      have hcl : max (min (2 * s.capacity) s.limit) minCapacity ≤ s.limit := by
        omega
      have hsame := setCapacity_same hle
      have hinv := setCapacity_inv hi hle hcl
      have hnf : isFull (setCapacity s (min (2 * s.capacity) s.limit)) = false := by
        unfold isFull
        rw [hsame.2.2.2.2.2.2.1, hsame.2.2.2.2.2.2.2.2.1]
        simp only [ge_iff_le, decide_eq_false_iff_not, Nat.not_le]
        simp only [minCapacity] at hlim ⊢
        omega
      have hm : makeRoom s = setCapacity s (min (2 * s.capacity) s.limit) := by
        unfold makeRoom
        simp only [hfull, hr, not_false_eq_true, and_self, if_true, hnf, Bool.false_eq_true, false_and, if_false]
      rw [hm]
      obtain ⟨e1, e2, e3, e4, e5, e6, e7, e8, e9, e10, e11⟩ := hsame
      refine ⟨[], T, by rw [e6]; simp, rfl, hinv, h.congr e1 e2 e3 e4 (by omega), ?_, fun t ht => ht, e4, e8, e5, e10, e11, by omega, Or.inl rfl⟩
      intro h0
      have h1 := hinv.cap
      rw [h0, e1, e9] at h1
      simp only [List.length_nil, minCapacity] at h1 hlim
      omega
  · have hm : makeRoom s = s := by
      unfold makeRoom
      simp [hfull]
    rw [hm]
    refine ⟨[], T, by simp, rfl, hi, h, ?_, fun t ht => ht, rfl, rfl, rfl, rfl, rfl, Nat.le_refl _, Or.inl rfl⟩
    intro h0
    rw [h0] at hcap
    simp only [List.length_nil] at hcap
    apply hfull
    simp [isFull]
    omega

theorem insertSorted_perm (e : Entry) (l : List Entry) : (insertSorted e l).Perm (e :: l) := by
  induction l with
  | nil => exact List.Perm.refl _
  | cons x xs ih =>
    unfold insertSorted
    split
    · exact List.Perm.refl _
    · exact (List.Perm.cons x ih).trans (List.Perm.swap e x xs)

theorem insertSorted_sorted (e : Entry) (l : List Entry) (h : l.Pairwise (fun a b => nameLt a.pkt.full b.pkt.full = true))
    (hne : ∀ x ∈ l, x.pkt.full ≠ e.pkt.full) : (insertSorted e l).Pairwise (fun a b => nameLt a.pkt.full b.pkt.full = true) := by
  induction l with
  | nil => exact List.pairwise_singleton _ _
  | cons x xs ih =>
    obtain ⟨h1, h2⟩ := List.pairwise_cons.mp h
    unfold insertSorted
    split
    · rename_i hlt
      refine List.pairwise_cons.mpr ⟨?_, h⟩
      intro y hy
      rcases List.mem_cons.mp hy with rfl | hy
      · exact hlt
      · have := h1 y hy
        rw [nameLt_iff] at *
        exact NameLt_trans hlt this
    · rename_i hlt
      refine List.pairwise_cons.mpr ⟨?_, ih h2 (fun y hy => hne y (List.mem_cons_of_mem _ hy))⟩
      intro y hy
      rcases List.mem_cons.mp ((insertSorted_perm e xs).mem_iff.mp hy) with rfl | hy
      · rw [nameLt_iff] at *
        rcases NameLt_total y.pkt.full x.pkt.full with h | h | h
        · exact absurd h hlt
        · exact absurd h.symm (hne x (List.mem_cons_self ..))
        · exact h
      · exact h1 y hy

theorem insertFreq_perm (x : Nat × Nat) (l : List (Nat × Nat)) : (insertFreq x l).Perm (x :: l) := by
  induction l with
  | nil => exact List.Perm.refl _
  | cons y ys ih =>
    unfold insertFreq
    split
    · exact List.Perm.refl _
    · exact (List.Perm.cons y ih).trans (List.Perm.swap x y ys)

theorem insertFreq_sorted (x : Nat × Nat) (l : List (Nat × Nat)) (h : l.Pairwise (fun a b => a.2 ≤ b.2)) :
    (insertFreq x l).Pairwise (fun a b => a.2 ≤ b.2) := by
  induction l with
  | nil => exact List.pairwise_singleton _ _
  | cons y ys ih =>
    obtain ⟨h1, h2⟩ := List.pairwise_cons.mp h
    unfold insertFreq
    split
    · rename_i hlt
      refine List.pairwise_cons.mpr ⟨?_, h⟩
      intro z hz
      rcases List.mem_cons.mp hz with rfl | hz
      · omega
      · have := h1 z hz; omega
    · rename_i hlt
      refine List.pairwise_cons.mpr ⟨?_, ih h2⟩
      intro z hz
      rcases List.mem_cons.mp ((insertFreq_perm x ys).mem_iff.mp hz) with rfl | hz
      · omega
      · exact h1 z hz

/-- The members that `afterInsert` leaves alone. -/
theorem afterInsert_same (s : St) (i : Nat) :
    (afterInsert s i).cache = s.cache ∧ (afterInsert s i).events = s.events ∧ (afterInsert s i).free = s.free ∧
    (afterInsert s i).policy = s.policy ∧ (afterInsert s i).now = s.now ∧ (afterInsert s i).log = s.log ∧
    (afterInsert s i).nPackets = s.nPackets ∧ (afterInsert s i).limit = s.limit ∧ (afterInsert s i).capacity = s.capacity ∧
    (afterInsert s i).ub = s.ub ∧ (afterInsert s i).nextEv = s.nextEv ∧ (afterInsert s i).nextSlot = s.nextSlot := by
  unfold afterInsert
  cases hp : s.policy <;> simp [hp]

theorem Inv.congr {s s' : St} (h : Inv s) (h1 : s'.cache = s.cache) (h2 : s'.free = s.free) (h3 : s'.events = s.events)
    (h4 : s'.nPackets = s.nPackets) (h5 : s'.limit = s.limit) (h6 : s'.capacity = s.capacity) (h7 : s'.ub = s.ub)
    (h8 : s'.nextEv = s.nextEv) (h9 : s'.nextSlot = s.nextSlot) : Inv s' := by
  cases s
  cases s'
  simp only at h1 h2 h3 h4 h5 h6 h7 h8 h9
  subst h1 h2 h3 h4 h5 h6 h7 h8 h9
  exact ⟨h.ub, h.n, h.cap, h.lim, h.sorted, h.ids, h.idLt, h.evs, h.evLt, h.evTarget, h.handleLt, h.handles, h.freeHandles, h.digests⟩

/-- The deadline of a packet inserted now. -/
def deadline (s : St) (w : Int) : Option Nat := if s.hasSched && decide (w ≥ 0) then some (s.now + w.toNat) else none

/-- The new entry. -/
def newEntry (s : St) (slot : Slot) (p : Pkt) (w : Int) : Entry :=
  if s.hasSched && decide (w ≥ 0) then ⟨⟨slot.id, some s.nextEv⟩, p, true⟩ else ⟨slot, p, true⟩

theorem newEntry_id (s : St) (slot : Slot) (p : Pkt) (w : Int) : (newEntry s slot p w).slot.id = slot.id := by
  unfold newEntry; split <;> rfl

theorem newEntry_pkt (s : St) (slot : Slot) (p : Pkt) (w : Int) : (newEntry s slot p w).pkt = p := by
  unfold newEntry; split <;> rfl

theorem newEntry_fresh (s : St) (slot : Slot) (p : Pkt) (w : Int) : (newEntry s slot p w).fresh = true := by
  unfold newEntry; split <;> rfl

/-- The state before `afterInsert`. -/
def stored (s : St) (slot : Slot) (rest : List Slot) (p : Pkt) (w : Int) : St :=
  { s with
    free := rest
    nPackets := s.nPackets + 1
    events := if s.hasSched && decide (w ≥ 0) then
        s.events.filter (fun x => some x.ev ≠ slot.handle) ++ [⟨s.nextEv, s.now + w.toNat, slot.id⟩] else s.events
    nextEv := if s.hasSched && decide (w ≥ 0) then s.nextEv + 1 else s.nextEv
    cache := insertSorted (newEntry s slot p w) s.cache }

theorem store_eq {s : St} {slot : Slot} {rest : List Slot} (hf : s.free = slot :: rest) (p : Pkt) (w : Int) :
    store s p w = { afterInsert (stored s slot rest p w) slot.id with log := s.log ++ [.inserted p.full (deadline s w)] } := by
  unfold store stored newEntry deadline
  rw [hf]
  cases hc : (s.hasSched && decide (w ≥ 0))
  · simp only [Bool.false_eq_true, if_false]
    have := afterInsert_same { s with free := rest, nPackets := s.nPackets + 1, cache := insertSorted ⟨slot, p, true⟩ s.cache } slot.id
    rw [this.2.2.2.2.2.1]
  · simp only [if_true]
    rw [(afterInsert_same _ slot.id).2.2.2.2.2.1]

theorem stored_inv {s : St} (h : Inv s) {slot : Slot} {rest : List Slot} (hf : s.free = slot :: rest) {p : Pkt} (w : Int)
    (hp : p.digest.length = 32) (hnew : ∀ e ∈ s.cache, e.pkt.full ≠ p.full) : Inv (stored s slot rest p w) := by
  have hperm := insertSorted_perm (newEntry s slot p w) s.cache
  have hmem : ∀ x, x ∈ insertSorted (newEntry s slot p w) s.cache ↔ x = newEntry s slot p w ∨ x ∈ s.cache := by
    intro x; rw [hperm.mem_iff, List.mem_cons]
  have hlen := hperm.length_eq
  have hids := h.ids
  rw [hf] at hids
  have hidsPerm : ((insertSorted (newEntry s slot p w) s.cache).map (fun e => e.slot.id) ++ rest.map Slot.id).Perm
      (s.cache.map (fun e => e.slot.id) ++ (slot :: rest).map Slot.id) := by
    have := hperm.map (fun e : Entry => e.slot.id)
    rw [List.map_cons, newEntry_id] at this
    refine (this.append_right _).trans ?_
    rw [List.map_cons, List.cons_append]
    exact List.perm_middle.symm
  have hslot : slot.handle = none := h.freeHandles slot (by rw [hf]; exact List.mem_cons_self ..)
  have hfil : s.events.filter (fun x => some x.ev ≠ slot.handle) = s.events := by
    rw [List.filter_eq_self]; intro x _; simp [hslot]
  refine ⟨h.ub, ?_, ?_, h.lim, ?_, ?_, ?_, ?_, ?_, ?_, ?_, ?_, ?_, ?_⟩
  · simp only [stored, hlen, List.length_cons, h.n]
  · have := h.cap
    rw [hf] at this
    simp only [stored, hlen, List.length_cons] at this ⊢
    omega
  · exact insertSorted_sorted _ _ h.sorted (fun x hx => by rw [newEntry_pkt]; exact hnew x hx)
  · exact hidsPerm.nodup_iff.mpr hids
  · intro i hi
    apply h.idLt
    rw [hf]
    exact hidsPerm.mem_iff.mp hi
  · simp only [stored, hfil]
    split
    · rw [List.map_append]
      refine List.nodup_append.mpr ⟨h.evs, by simp, ?_⟩
      intro a ha b hb hab
      obtain ⟨x, hx, rfl⟩ := List.mem_map.mp ha
      simp only [List.map_cons, List.map_nil, List.mem_singleton] at hb
      have := h.evLt x hx
      omega
    · exact h.evs
  · intro x hx
    simp only [stored, hfil] at hx ⊢
    split at hx
    · rename_i hc
      rw [if_pos hc]
      rcases List.mem_append.mp hx with hx | hx
      · have := h.evLt x hx; omega
      · obtain rfl := List.mem_singleton.mp hx
        simp
    · rename_i hc
      rw [if_neg hc]
      exact h.evLt x hx
  · intro x hx
    simp only [stored, hfil] at hx ⊢
    have hold : x ∈ s.events → ∃ e ∈ insertSorted (newEntry s slot p w) s.cache, e.slot.id = x.target ∧ e.slot.handle = some x.ev := by
      intro hx
      obtain ⟨e, he, h1, h2⟩ := h.evTarget x hx
      exact ⟨e, (hmem e).mpr (Or.inr he), h1, h2⟩
    split at hx
    · rename_i hc
      rcases List.mem_append.mp hx with hx | hx
      · exact hold hx
      · obtain rfl := List.mem_singleton.mp hx
        refine ⟨newEntry s slot p w, (hmem _).mpr (Or.inl rfl), newEntry_id .., ?_⟩
        unfold newEntry
        rw [if_pos hc]
    · exact hold hx
  · intro e he k hk
    simp only [stored] at he ⊢
    rcases (hmem e).mp he with rfl | he
    · unfold newEntry at hk
      split at hk
      · rename_i hc
        rw [if_pos hc]
        simp only [Option.some.injEq] at hk
        omega
      · simp [hslot] at hk
    · have := h.handleLt e he k hk
      split <;> omega
  · intro e he e' he' k hk hk'
    simp only [stored] at he he'
    have hnewk : ∀ k, (newEntry s slot p w).slot.handle = some k → k = s.nextEv := by
      intro k hk
      unfold newEntry at hk
      split at hk
      · simpa using hk.symm
      · simp [hslot] at hk
    rcases (hmem e).mp he with h1 | h1
    · rcases (hmem e').mp he' with h2 | h2
      · rw [h1, h2]
      · rw [h1] at hk
        have := hnewk k hk
        have := h.handleLt e' h2 k hk'
        omega
    · rcases (hmem e').mp he' with h2 | h2
      · rw [h2] at hk'
        have := hnewk k hk'
        have := h.handleLt e h1 k hk
        omega
      · exact h.handles e h1 e' h2 k hk hk'
  · intro f hf'
    exact h.freeHandles f (by rw [hf]; exact List.mem_cons_of_mem _ hf')
  · intro e he
    simp only [stored] at he
    rcases (hmem e).mp he with rfl | he
    · rw [newEntry_pkt]; exact hp
    · exact h.digests e he

theorem store_spec {s : St} {T : List Tag} (hi : Inv s) (h : Rel s T) (hfree : s.free ≠ []) {p : Pkt} (w : Int)
    (hp : p.digest.length = 32) (hnew : ∀ e ∈ s.cache, e.pkt.full ≠ p.full) :
    ∃ T', (store s p w).log = s.log ++ [.inserted p.full (deadline s w)] ∧ T'.map itemOf = T.map itemOf ++ [⟨p.full, deadline s w, 0⟩] ∧
      Inv (store s p w) ∧ Rel (store s p w) T' ∧ (store s p w).policy = s.policy ∧ (store s p w).limit = s.limit ∧
      (store s p w).nPackets = s.nPackets + 1 ∧ (store s p w).now = s.now := by
  cases hf : s.free with
  | nil => exact absurd hf hfree
  | cons slot rest =>
    rw [store_eq hf]
    have hinv := stored_inv hi hf w hp hnew
    obtain ⟨e1, e2, e3, e4, e5, e6, e7, e8, e9, e10, e11, e12⟩ := afterInsert_same (stored s slot rest p w) slot.id
    have hslot : slot.handle = none := hi.freeHandles slot (by rw [hf]; exact List.mem_cons_self ..)
    have hfil : s.events.filter (fun x => some x.ev ≠ slot.handle) = s.events := by
      rw [List.filter_eq_self]; intro x _; simp [hslot]
    have hnoid : ∀ e ∈ s.cache, e.slot.id ≠ slot.id := by
      intro e he heq
      have := (List.nodup_append.mp hi.ids).2.2 _ (List.mem_map_of_mem he) slot.id (by rw [hf]; simp)
      exact this heq
    refine ⟨T ++ [(newEntry s slot p w, deadline s w, 0)], rfl, ?_, ?_, ?_, e4, e8, e7, e5⟩
    · simp [itemOf, newEntry_pkt]
    · exact hinv.congr e1 e3 e2 e7 e8 e9 e10 e11 e12
    · refine ⟨?_, ?_, ?_⟩
      · show (List.map Prod.fst (T ++ [(newEntry s slot p w, deadline s w, 0)])).Perm (afterInsert (stored s slot rest p w) slot.id).cache
        rw [e1, List.map_append]
        simp only [stored, List.map_cons, List.map_nil]
        exact ((List.perm_append_singleton _ _).trans (h.perm.cons _)).trans (insertSorted_perm _ _).symm
      · have hc := h.cleanup
        unfold CleanupRel at hc ⊢
        show match (afterInsert (stored s slot rest p w) slot.id).policy with
          | .fifo | .lru => (afterInsert (stored s slot rest p w) slot.id).cleanup.map Prod.fst = _
          | .lfu => (afterInsert (stored s slot rest p w) slot.id).cleanup.Perm _ ∧
              (afterInsert (stored s slot rest p w) slot.id).cleanup.Pairwise _
          | .persistent => (afterInsert (stored s slot rest p w) slot.id).cleanup = []
        rw [e4]
        have hpol : (stored s slot rest p w).policy = s.policy := rfl
        have hcl : (stored s slot rest p w).cleanup = s.cleanup := rfl
        rw [hpol]
        unfold afterInsert
        rw [hpol, hcl]
        cases hpo : s.policy <;> simp only [hpo] at hc ⊢
        · simp [hc, newEntry_id]
        · simp [hc, newEntry_id]
        · refine ⟨(insertFreq_perm _ _).trans ?_, insertFreq_sorted _ _ hc.2⟩
          rw [List.map_append]
          simp only [List.map_cons, List.map_nil, newEntry_id]
          exact ((hc.1.cons _).trans (List.perm_append_singleton _ _).symm)
        · rw [hcl]; exact hc
      · intro t ht
        show FreshRel _ t
        have hev : (afterInsert (stored s slot rest p w) slot.id).events =
            if s.hasSched && decide (w ≥ 0) then s.events ++ [⟨s.nextEv, s.now + w.toNat, slot.id⟩] else s.events := by
          rw [e2]; simp only [stored, hfil]
        rcases List.mem_append.mp ht with ht | ht
        · have hfr := h.fresh t ht
          have hid := hnoid t.1 (h.mem ht)
          unfold FreshRel at hfr ⊢
          show match t.2.1 with
            | none => _ ∧ ∀ x ∈ (afterInsert (stored s slot rest p w) slot.id).events, _
            | some d => (_ ∧ ∃ x ∈ (afterInsert (stored s slot rest p w) slot.id).events, _) ∨
                (_ ∧ d ≤ (afterInsert (stored s slot rest p w) slot.id).now ∧ ∀ x ∈ (afterInsert (stored s slot rest p w) slot.id).events, _)
          rw [hev, e5]
          have hnow : (stored s slot rest p w).now = s.now := rfl
          rw [hnow]
          have hmem : ∀ x ∈ (if s.hasSched && decide (w ≥ 0) then s.events ++ [⟨s.nextEv, s.now + w.toNat, slot.id⟩] else s.events),
              x ∈ s.events ∨ x.target = slot.id := by
            intro x hx
            split at hx
            · rcases List.mem_append.mp hx with hx | hx
              · exact Or.inl hx
              · obtain rfl := List.mem_singleton.mp hx; exact Or.inr rfl
            · exact Or.inl hx
          have hno : (∀ x ∈ s.events, x.target ≠ t.1.slot.id) →
              ∀ x ∈ (if s.hasSched && decide (w ≥ 0) then s.events ++ [⟨s.nextEv, s.now + w.toNat, slot.id⟩] else s.events),
                x.target ≠ t.1.slot.id := by
            intro hn x hx
            rcases hmem x hx with hx | hx
            · exact hn x hx
            · rw [hx]; exact fun heq => hid heq.symm
          cases hd : t.2.1 with
          | none => rw [hd] at hfr; exact ⟨hfr.1, hno hfr.2⟩
          | some d =>
            rw [hd] at hfr
            rcases hfr with ⟨a, x, hx, b⟩ | ⟨a, b, c⟩
            · refine Or.inl ⟨a, x, ?_, b⟩
              split
              · exact List.mem_append_left _ hx
              · exact hx
            · exact Or.inr ⟨a, b, hno c⟩
        · obtain rfl := List.mem_singleton.mp ht
          unfold FreshRel
          show match deadline s w with
            | none => _ ∧ ∀ x ∈ (afterInsert (stored s slot rest p w) slot.id).events, _
            | some d => (_ ∧ ∃ x ∈ (afterInsert (stored s slot rest p w) slot.id).events, _) ∨
                (_ ∧ d ≤ (afterInsert (stored s slot rest p w) slot.id).now ∧ ∀ x ∈ (afterInsert (stored s slot rest p w) slot.id).events, _)
          rw [hev]
          unfold deadline
          by_cases hc : (s.hasSched && decide (w ≥ 0)) = true
          · rw [if_pos hc, if_pos hc]
            refine Or.inl ⟨newEntry_fresh .., ⟨s.nextEv, s.now + w.toNat, slot.id⟩, by simp, ?_, rfl⟩
            simp [newEntry_id]
          · rw [if_neg hc, if_neg hc]
            refine ⟨newEntry_fresh .., ?_⟩
            intro x hx heq
            obtain ⟨e, he, h1, _⟩ := hi.evTarget x hx
            rw [newEntry_id] at heq
            exact hnoid e he (h1.trans heq)

/-! ### Access -/

def bumpOne (id : Nat) (x : Nat × Nat) : Nat × Nat := if x.1 = id then (x.1, x.2 + 1) else x

theorem bump_spec (id : Nat) (l : List (Nat × Nat)) (hn : (l.map Prod.fst).Nodup) (hs : l.Pairwise (fun a b => a.2 ≤ b.2))
    (hm : id ∈ l.map Prod.fst) : ∃ l', bump id l = some l' ∧ l'.Perm (l.map (bumpOne id)) ∧ l'.Pairwise (fun a b => a.2 ≤ b.2) := by
  induction l with
  | nil => simp at hm
  | cons x rest ih =>
    obtain ⟨i, f⟩ := x
    rw [List.map_cons, List.nodup_cons] at hn
    obtain ⟨h1, h2⟩ := List.pairwise_cons.mp hs
    by_cases hid : i = id
    · subst hid
      have hrest : rest.map (bumpOne i) = rest := by
        rw [List.map_congr_left (g := fun x => x)]
        · simp
        · intro y hy
          unfold bumpOne
          rw [if_neg]
          intro he
          exact hn.1 (List.mem_map.mpr ⟨y, hy, he⟩)
      have hhead : bumpOne i (i, f) = (i, f + 1) := by simp [bumpOne]
      rw [List.map_cons, hrest, hhead]
      unfold bump
      rw [if_pos rfl]
      cases rest with
      | nil => exact ⟨[(i, f + 1)], rfl, List.Perm.refl _, List.pairwise_singleton _ _⟩
      | cons y ys =>
        by_cases hy : y.2 < f + 1
        · refine ⟨insertFreq (i, f + 1) (y :: ys), by simp only [hy, if_true], insertFreq_perm _ _, insertFreq_sorted _ _ h2⟩
        · refine ⟨(i, f + 1) :: y :: ys, by simp only [hy, if_false], List.Perm.refl _, List.pairwise_cons.mpr ⟨?_, h2⟩⟩
          intro z hz
          rcases List.mem_cons.mp hz with rfl | hz
          · omega
          · have := (List.pairwise_cons.mp h2).1 z hz
            simp only
            omega
    · have hm' : id ∈ rest.map Prod.fst := by
        rw [List.map_cons] at hm
        rcases List.mem_cons.mp hm with h | h
        · exact absurd h.symm hid
        · exact h
      obtain ⟨l', e1, e2, e3⟩ := ih hn.2 h2 hm'
      refine ⟨(i, f) :: l', ?_, ?_, ?_⟩
      · unfold bump
        rw [if_neg hid, e1]
        rfl
      · have : bumpOne id (i, f) = (i, f) := by simp [bumpOne, hid]
        rw [List.map_cons, this]
        exact e2.cons _
      · refine List.pairwise_cons.mpr ⟨?_, e3⟩
        intro z hz
        obtain ⟨y, hy, rfl⟩ := List.mem_map.mp (e2.mem_iff.mp hz)
        have := h1 y hy
        unfold bumpOne
        split <;> simp only at this ⊢ <;> omega

theorem access_spec {s : St} {T : List Tag} (hi : Inv s) (h : Rel s T) {e : Entry} (he : e ∈ s.cache) :
    ∃ T', T'.map itemOf = use s.policy e.pkt.full (T.map itemOf) ∧ Inv (afterAccess s e.slot.id) ∧
      Rel (afterAccess s e.slot.id) T' ∧ (afterAccess s e.slot.id).cache = s.cache ∧
      (afterAccess s e.slot.id).policy = s.policy ∧ (afterAccess s e.slot.id).limit = s.limit ∧
      (afterAccess s e.slot.id).nPackets = s.nPackets ∧ (afterAccess s e.slot.id).now = s.now ∧
      (afterAccess s e.slot.id).log = s.log := by
  have hiff : ∀ u ∈ T, (u.1.pkt.full = e.pkt.full ↔ u.1.slot.id = e.slot.id) := by
    intro u hu
    constructor
    · intro hf; rw [hi.fullInj (h.mem hu) he hf]
    · intro hf; rw [hi.idInj (h.mem hu) he hf]
  have hmT : e ∈ T.map Prod.fst := h.perm.mem_iff.mpr he
  have hc := h.cleanup
  unfold CleanupRel at hc
  unfold afterAccess
  cases hpol : s.policy <;> simp only [hpol] at hc ⊢
  · refine ⟨T, rfl, hi, h, by simp [hpol]⟩
  · -- LRU
    have ha : afterInsert (beforeErase s e.slot.id) e.slot.id =
        { s with cleanup := s.cleanup.filter (fun x => x.1 ≠ e.slot.id) ++ [(e.slot.id, 0)] } := by
      unfold afterInsert beforeErase
      simp only [hpol]
    rw [ha]
    refine ⟨T.filter (fun t => t.1.slot.id ≠ e.slot.id) ++ T.filter (fun t => t.1.slot.id = e.slot.id), ?_, ?_, ?_, by simp [hpol]⟩
    · unfold use
      simp only
      rw [List.map_append, List.filter_map, List.filter_map]
      congr 2
      · apply List.filter_congr
        intro u hu
        simp only [Function.comp, itemOf]
        simp [hiff u hu]
      · apply List.filter_congr
        intro u hu
        simp only [Function.comp, itemOf]
        simp [hiff u hu]
    · exact hi.congr rfl rfl rfl rfl rfl rfl rfl rfl rfl
    · refine ⟨?_, ?_, ?_⟩
      · refine (List.Perm.map _ ?_).trans h.perm
        have := List.filter_append_perm (fun t : Tag => decide (t.1.slot.id ≠ e.slot.id)) T
        refine List.Perm.trans ?_ this
        refine List.Perm.append_left _ ?_
        have e2 : T.filter (fun t => decide (t.1.slot.id = e.slot.id)) = T.filter (fun t => !decide (t.1.slot.id ≠ e.slot.id)) := by
          apply List.filter_congr
          intro u _
          simp
        rw [e2]
      · unfold CleanupRel
        simp only [hpol, List.map_append]
        have e1 : (T.filter (fun t => t.1.slot.id = e.slot.id)).map (fun t => t.1.slot.id) = [e.slot.id] := by
          obtain ⟨t, ht, hte⟩ := List.mem_map.mp hmT
          have hnd := Rel.tagIds hi h
          clear hc ha hpol hiff h
          induction T with
          | nil => cases ht
          | cons u T ih =>
            rw [List.map_cons, List.nodup_cons] at hnd
            by_cases hu : u.1.slot.id = e.slot.id
            · rw [List.filter_cons_of_pos (by simpa using hu)]
              have : T.filter (fun t => t.1.slot.id = e.slot.id) = [] := by
                rw [List.filter_eq_nil_iff]
                intro v hv hve
                apply hnd.1
                have : v.1.slot.id = u.1.slot.id := by rw [hu]; simpa using hve
                rw [← this]
                exact List.mem_map_of_mem (f := fun t : Tag => t.1.slot.id) hv
              rw [this]; simp [hu]
            · rw [List.filter_cons_of_neg (by simpa using hu)]
              rcases List.mem_cons.mp ht with rfl | ht
              · exact absurd (by rw [hte]) hu
              · exact ih (List.mem_map.mpr ⟨t, ht, hte⟩) ht hnd.2
        rw [e1, filter_map_id Prod.fst, filter_map_id (fun t : Tag => t.1.slot.id), hc]
        rfl
      · intro t ht
        have ht' : t ∈ T := by
          rcases List.mem_append.mp ht with ht | ht
          · exact (List.mem_filter.mp ht).1
          · exact (List.mem_filter.mp ht).1
        exact h.fresh t ht'
  · -- LFU
    have hmc : e.slot.id ∈ s.cleanup.map Prod.fst := by
      obtain ⟨t, ht, hte⟩ := List.mem_map.mp hmT
      have : (t.1.slot.id, t.2.2) ∈ s.cleanup := hc.1.mem_iff.mpr (List.mem_map_of_mem (f := fun t : Tag => (t.1.slot.id, t.2.2)) ht)
      rw [← hte]
      exact List.mem_map_of_mem (f := Prod.fst) this
    obtain ⟨l', b1, b2, b3⟩ := bump_spec e.slot.id s.cleanup (cleanup_nodup hi h) hc.2 hmc
    simp only [b1]
    refine ⟨T.map (fun t => if t.1.slot.id = e.slot.id then (t.1, t.2.1, t.2.2 + 1) else t), ?_, ?_, ?_, by simp [hpol]⟩
    · unfold use
      simp only [List.map_map]
      apply List.map_congr_left
      intro u hu
      simp only [Function.comp]
      by_cases hu2 : u.1.slot.id = e.slot.id
      · rw [if_pos hu2, if_pos (show (itemOf u).full = e.pkt.full from (hiff u hu).mpr hu2)]; rfl
      · rw [if_neg hu2, if_neg (show ¬ (itemOf u).full = e.pkt.full from fun hf => hu2 ((hiff u hu).mp hf))]
    · exact hi.congr rfl rfl rfl rfl rfl rfl rfl rfl rfl
    · refine ⟨?_, ?_, ?_⟩
      · have : (T.map (fun t => if t.1.slot.id = e.slot.id then (t.1, t.2.1, t.2.2 + 1) else t)).map Prod.fst = T.map Prod.fst := by
          rw [List.map_map]
          apply List.map_congr_left
          intro u _
          simp only [Function.comp]
          split <;> rfl
        rw [this]; exact h.perm
      · unfold CleanupRel
        simp only [hpol]
        refine ⟨b2.trans ?_, b3⟩
        have := hc.1.map (bumpOne e.slot.id)
        refine this.trans ?_
        rw [List.map_map, List.map_map]
        apply List.Perm.of_eq
        apply List.map_congr_left
        intro u _
        simp only [Function.comp, bumpOne]
        split <;> rfl
      · intro t ht
        obtain ⟨u, hu, rfl⟩ := List.mem_map.mp ht
        have := h.fresh u hu
        split
        · exact this
        · exact this
  · refine ⟨T, rfl, hi, h, by simp [hpol]⟩

/-! ### Erasing -/

theorem any_full {s : St} {T : List Tag} (h : Rel s T) (n : List Comp) :
    (T.map itemOf).any (fun x => x.full = n) = true ↔ ∃ e ∈ s.cache, e.pkt.full = n := by
  rw [List.any_eq_true]
  constructor
  · rintro ⟨x, hx, he⟩
    obtain ⟨t, ht, rfl⟩ := List.mem_map.mp hx
    exact ⟨t.1, h.mem ht, of_decide_eq_true he⟩
  · rintro ⟨e, he, hf⟩
    obtain ⟨t, ht, hte⟩ := List.mem_map.mp (h.perm.mem_iff.mpr he)
    refine ⟨itemOf t, List.mem_map_of_mem ht, ?_⟩
    simp [itemOf, hte, hf]

theorem eraseEntry_spec {s : St} {T : List Tag} (hi : Inv s) (h : Rel s T) {e : Entry} (he : e ∈ s.cache) :
    ∃ T', (eraseEntry s e).log = s.log ++ [.erased e.pkt.full] ∧
      obsRun s.policy false (T.map itemOf) [.erased e.pkt.full] = some (T'.map itemOf) ∧
      Inv (eraseEntry s e) ∧ Rel (eraseEntry s e) T' ∧
      (eraseEntry s e).cache = s.cache.filter (fun x => x.slot.id ≠ e.slot.id) ∧
      (eraseEntry s e).policy = s.policy ∧ (eraseEntry s e).limit = s.limit ∧ (eraseEntry s e).now = s.now ∧
      (eraseEntry s e).nPackets ≤ s.nPackets := by
  refine ⟨T.filter (fun t => t.1.slot.id ≠ e.slot.id), rfl, ?_, ?_, ?_, rfl, rfl, rfl, rfl, ?_⟩
  · unfold obsRun obsRun obsStep
    simp only
    rw [if_pos ((any_full h _).mpr ⟨e, he, rfl⟩)]
    simp only [Option.bind_some, Option.some.injEq]
    rw [List.filter_map]
    congr 1
    apply List.filter_congr
    intro u hu
    have : u.1.pkt.full = e.pkt.full ↔ u.1.slot.id = e.slot.id := by
      constructor
      · intro hf; rw [hi.fullInj (h.mem hu) he hf]
      · intro hf; rw [hi.idInj (h.mem hu) he hf]
    simp [Function.comp, itemOf, this]
  · exact (remove_inv hi he).congr rfl rfl rfl rfl rfl rfl rfl rfl rfl
  · exact (remove_rel hi h he).congr rfl rfl rfl rfl (Nat.le_refl _)
  · show s.nPackets - 1 ≤ s.nPackets
    omega

theorem obsRun_append (pol : Policy) (b : Bool) (a : Abs) (l m : List Obs) :
    obsRun pol b a (l ++ m) = (obsRun pol b a l).bind (fun a => obsRun pol b a m) := by
  induction l generalizing a with
  | nil => rfl
  | cons o l ih =>
    simp only [List.cons_append, obsRun]
    cases obsStep pol b a o with
    | none => rfl
    | some a' => simp [ih]

theorem eraseFold_spec (l : List Entry) : ∀ {s : St} {T : List Tag}, Inv s → Rel s T → (∀ e ∈ l, e ∈ s.cache) →
    (l.map (fun e => e.slot.id)).Nodup →
    ∃ T', (l.foldl eraseEntry s).log = s.log ++ l.map (fun e => Obs.erased e.pkt.full) ∧
      obsRun s.policy false (T.map itemOf) (l.map (fun e => Obs.erased e.pkt.full)) = some (T'.map itemOf) ∧
      Inv (l.foldl eraseEntry s) ∧ Rel (l.foldl eraseEntry s) T' ∧
      (l.foldl eraseEntry s).cache = s.cache.filter (fun x => x.slot.id ∉ l.map (fun e => e.slot.id)) ∧
      (l.foldl eraseEntry s).policy = s.policy ∧ (l.foldl eraseEntry s).limit = s.limit ∧
      (l.foldl eraseEntry s).now = s.now ∧ (l.foldl eraseEntry s).nPackets ≤ s.nPackets := by
  induction l with
  | nil =>
    intro s T hi h _ _
    exact ⟨T, by simp, rfl, hi, h, (List.filter_eq_self.mpr (by simp)).symm, rfl, rfl, rfl, Nat.le_refl _⟩
  | cons e l ih =>
    intro s T hi h hmem hnd
    rw [List.map_cons, List.nodup_cons] at hnd
    obtain ⟨T1, a1, a2, a3, a4, a5, a6, a7, a8, a9⟩ := eraseEntry_spec hi h (hmem e (List.mem_cons_self ..))
    have hm1 : ∀ x ∈ l, x ∈ (eraseEntry s e).cache := by
      intro x hx
      rw [a5, List.mem_filter]
      refine ⟨hmem x (List.mem_cons_of_mem _ hx), ?_⟩
      have : x.slot.id ≠ e.slot.id := by
        intro he
        exact hnd.1 (List.mem_map.mpr ⟨x, hx, he⟩)
      simpa using this
    obtain ⟨T2, b1, b2, b3, b4, b5, b6, b7, b8, b9⟩ := ih a3 a4 hm1 hnd.2
    refine ⟨T2, ?_, ?_, b3, b4, ?_, b6.trans a6, b7.trans a7, b8.trans a8, Nat.le_trans b9 a9⟩
    · rw [List.foldl_cons, b1, a1]; simp
    · have := obsRun_append s.policy false (T.map itemOf) [.erased e.pkt.full] (l.map (fun e => Obs.erased e.pkt.full))
      rw [a2, Option.bind_some] at this
      rw [List.map_cons, ← List.singleton_append, this, ← a6]
      exact b2
    · rw [List.foldl_cons, b5, a5, List.filter_filter]
      apply List.filter_congr
      intro x _
      rw [Bool.eq_iff_iff]
      simp [and_comm, not_or]

theorem shrink_spec {s : St} {T : List Tag} (hi : Inv s) (h : Rel s T) (hl : 16 ≤ s.limit) : Inv (shrink s) ∧ Rel (shrink s) T ∧
    (shrink s).cache = s.cache ∧ (shrink s).log = s.log ∧ (shrink s).policy = s.policy ∧ (shrink s).limit = s.limit ∧
    (shrink s).now = s.now ∧ (shrink s).nPackets = s.nPackets := by
  unfold shrink
  split
  · rename_i hc
    have h1 := hi.n
    have h2 := hi.cap
    have h3 := hi.lim
    have hle : s.nPackets ≤ max (s.capacity / 2) minCapacity := by simp only [minCapacity]; omega
    have hle2 : max (s.capacity / 2) minCapacity ≤ s.limit := by simp only [minCapacity]; omega
    obtain ⟨e1, e2, e3, e4, e5, e6, e7, e8, _, _, _⟩ := setCapacity_same hle
    exact ⟨setCapacity_inv hi hle hle2, h.congr e1 e2 e3 e4 (by omega), e1, e6, e4, e8, e5, e7⟩
  · exact ⟨hi, h, rfl, rfl, rfl, rfl, rfl, rfl⟩

/-! ### Timers -/

def setStale (target : Nat) (e : Entry) : Entry := if e.slot.id = target then { e with fresh := false } else e

theorem setStale_slot (i : Nat) (e : Entry) : (setStale i e).slot = e.slot := by unfold setStale; split <;> rfl
theorem setStale_pkt (i : Nat) (e : Entry) : (setStale i e).pkt = e.pkt := by unfold setStale; split <;> rfl

theorem event_unique {s : St} (hi : Inv s) {x y : Event} (hx : x ∈ s.events) (hy : y ∈ s.events) (h : x.target = y.target) : x = y := by
  obtain ⟨e, he, h1, h2⟩ := hi.evTarget x hx
  obtain ⟨e', he', h1', h2'⟩ := hi.evTarget y hy
  have := hi.idInj he he' (by rw [h1, h1', h])
  subst this
  rw [h2] at h2'
  exact eq_of_map_nodup hi.evs hx hy (Option.some.inj h2')

theorem fired_inv {s : St} (hi : Inv s) {x : Event} (hx : x ∈ s.events) :
    Inv { s with events := s.events.filter (fun y => y.ev ≠ x.ev), cache := s.cache.map (setStale x.target) } := by
  have hids : (s.cache.map (setStale x.target)).map (fun e => e.slot.id) = s.cache.map (fun e => e.slot.id) := by
    rw [List.map_map]; apply List.map_congr_left; intro e _; simp [Function.comp, setStale_slot]
  refine ⟨hi.ub, ?_, ?_, hi.lim, ?_, ?_, ?_, ?_, ?_, ?_, ?_, ?_, hi.freeHandles, ?_⟩
  · simp [hi.n]
  · simpa using hi.cap
  · simp only [List.pairwise_map, setStale_pkt]; exact hi.sorted
  · simp only [hids]; exact hi.ids
  · simp only [hids]; exact hi.idLt
  · exact (List.filter_sublist.map _).nodup hi.evs
  · intro y hy; exact hi.evLt y (List.mem_filter.mp hy).1
  · intro y hy
    obtain ⟨e, he, h1, h2⟩ := hi.evTarget y (List.mem_filter.mp hy).1
    exact ⟨setStale x.target e, List.mem_map_of_mem he, by rw [setStale_slot]; exact h1, by rw [setStale_slot]; exact h2⟩
  · intro e he k hk
    obtain ⟨u, hu, rfl⟩ := List.mem_map.mp he
    rw [setStale_slot] at hk
    exact hi.handleLt u hu k hk
  · intro e he e' he' k hk hk'
    obtain ⟨u, hu, rfl⟩ := List.mem_map.mp he
    obtain ⟨u', hu', rfl⟩ := List.mem_map.mp he'
    rw [setStale_slot] at hk hk'
    rw [hi.handles u hu u' hu' k hk hk']
  · intro e he
    obtain ⟨u, hu, rfl⟩ := List.mem_map.mp he
    rw [setStale_pkt]; exact hi.digests u hu

theorem fired_rel {s : St} {T : List Tag} (hi : Inv s) (h : Rel s T) {x : Event} (hx : x ∈ s.events) (hd : x.due ≤ s.now) :
    Rel { s with events := s.events.filter (fun y => y.ev ≠ x.ev), cache := s.cache.map (setStale x.target) }
      (T.map (fun t => (setStale x.target t.1, t.2))) := by
  refine ⟨?_, ?_, ?_⟩
  · have := h.perm.map (setStale x.target)
    simp only [List.map_map] at this ⊢
    exact this
  · have := h.cleanup
    unfold CleanupRel at this ⊢
    simp only [List.map_map, Function.comp_def, setStale_slot]
    exact this
  · intro t ht
    obtain ⟨u, hu, rfl⟩ := List.mem_map.mp ht
    have hf := h.fresh u hu
    unfold FreshRel at hf ⊢
    simp only [setStale_slot]
    have hno : (∀ y ∈ s.events, y.target ≠ u.1.slot.id) → ∀ y ∈ s.events.filter (fun y => y.ev ≠ x.ev), y.target ≠ u.1.slot.id :=
      fun hh y hy => hh y (List.mem_filter.mp hy).1
    by_cases ht : u.1.slot.id = x.target
    · have hfr : (setStale x.target u.1).fresh = false := by unfold setStale; rw [if_pos ht]
      rw [hfr]
      cases hdl : u.2.1 with
      | none => rw [hdl] at hf; exact absurd ht.symm (hf.2 x hx)
      | some d =>
        rw [hdl] at hf
        rcases hf with ⟨_, y, hy, hy1, hy2⟩ | ⟨_, _, hno'⟩
        · have : x = y := event_unique hi hx hy (by rw [hy1, ht])
          subst this
          refine Or.inr ⟨rfl, by omega, ?_⟩
          intro z hz hz1
          obtain ⟨hz, hz2⟩ := List.mem_filter.mp hz
          have : x = z := event_unique hi hx hz (by rw [hz1, ht])
          rw [this] at hz2
          simp at hz2
        · exact absurd ht.symm (hno' x hx)
    · have hfr : (setStale x.target u.1).fresh = u.1.fresh := by unfold setStale; rw [if_neg ht]
      rw [hfr]
      cases hdl : u.2.1 with
      | none => rw [hdl] at hf; exact ⟨hf.1, hno hf.2⟩
      | some d =>
        rw [hdl] at hf
        rcases hf with ⟨a, y, hy, hy1, hy2⟩ | ⟨a, b, c⟩
        · refine Or.inl ⟨a, y, List.mem_filter.mpr ⟨hy, ?_⟩, hy1, hy2⟩
          have : y.ev ≠ x.ev := by
            intro he
            have := eq_of_map_nodup hi.evs hy hx he
            rw [this] at hy1
            exact ht hy1.symm
          simpa using this
        · exact Or.inr ⟨a, b, hno c⟩

/-! ### One step -/

/-- What a step keeps. -/
def Good (s s' : St) (T : List Tag) : Prop :=
  ∃ obs T', s'.log = s.log ++ obs ∧ obsRun s.policy false (T.map itemOf) obs = some (T'.map itemOf) ∧
    Inv s' ∧ Rel s' T' ∧ s'.policy = s.policy ∧ s'.limit = s.limit ∧ s'.nPackets ≤ s.nPackets + 1

theorem Good.refl {s : St} {T : List Tag} (hi : Inv s) (h : Rel s T) : Good s s T :=
  ⟨[], T, by simp, rfl, hi, h, rfl, rfl, by omega⟩

theorem obs_used {s : St} {T T' : List Tag} (h : Rel s T) {e : Entry} (he : e ∈ s.cache)
    (hT : T'.map itemOf = use s.policy e.pkt.full (T.map itemOf)) :
    obsRun s.policy false (T.map itemOf) [.used e.pkt.full] = some (T'.map itemOf) := by
  unfold obsRun obsRun obsStep
  simp only
  rw [if_pos ((any_full h _).mpr ⟨e, he, rfl⟩), hT]
  rfl

theorem obs_usedExact {s : St} {T : List Tag} (h : Rel s T) {e : Entry} (he : e ∈ s.cache) :
    obsRun s.policy false (T.map itemOf) [.usedExact e.pkt.full] = some (T.map itemOf) := by
  unfold obsRun obsRun obsStep
  simp only
  rw [if_pos ((any_full h _).mpr ⟨e, he, rfl⟩)]
  rfl

theorem mem_lowerBound {s : St} {n : List Comp} {e : Entry} (h : e ∈ lowerBound s n) : e ∈ s.cache :=
  (List.dropWhile_suffix _).subset h

theorem scan_mem {f : IFields} {l : List Entry} {e : Entry} (h : scan f l = some e) : e ∈ l := by
  induction l with
  | nil => simp [scan] at h
  | cons x l ih =>
    unfold scan at h
    split at h
    · exact List.mem_cons_of_mem _ (ih h)
    · split at h
      · split at h
        · cases h; exact List.mem_cons_self ..
        · exact List.mem_cons_of_mem _ (ih h)
      · cases h

theorem selectChild_mem {f : IFields} {l : List Entry} {e : Entry} (h : selectChild f l = some e) : e ∈ l := by
  unfold selectChild at h
  have hsub : ∀ y, y ∈ (if f.mustBeFresh then l.dropWhile (fun e => !e.fresh) else l) → y ∈ l := by
    intro y hy
    split at hy
    · exact (List.dropWhile_suffix _).subset hy
    · exact hy
  split at h
  · cases h
  · rename_i x t hx
    rw [hx] at hsub
    split at h
    · cases h; exact hsub _ (List.mem_cons_self ..)
    · exact hsub _ (List.mem_cons_of_mem _ (scan_mem h))

theorem step_good {s : St} {T : List Tag} (hi : Inv s) (h : Rel s T) (hp : s.policy = .persistent → s.nPackets < s.limit)
    (op : Op) (hop : ∀ p w, op = .insert p w → p.digest.length = 32)
    (her : ∀ n b, op = .erase n b → 16 ≤ s.limit) : Good s (step s op) T := by
  cases op with
  | insert p w =>
    show Good s (insert s p w) T
    unfold insert
    split
    · exact Good.refl hi h
    · rename_i hany
      obtain ⟨obs, T1, a1, a2, a3, a4, a5, a6, a7, a8, a9, a10, a11, a12, a13⟩ := makeRoom_spec hi h hp
      have hnew : ∀ e ∈ (makeRoom s).cache, e.pkt.full ≠ p.full := by
        intro e he hf
        obtain ⟨t, ht, hte⟩ := List.mem_map.mp (a4.perm.mem_iff.mpr he)
        apply hany
        rw [List.any_eq_true]
        exact ⟨t.1, h.mem (a6 t ht), by rw [hte]; simpa using hf⟩
      obtain ⟨T2, b1, b2, b3, b4, b5, b6, b7, b8⟩ := store_spec a3 a4 a5 w (hop p w rfl) hnew
      refine ⟨obs ++ [.inserted p.full (deadline (makeRoom s) w)], T2, ?_, ?_, b3, b4, b5.trans a7, b6.trans a8, by omega⟩
      · rw [b1, a1, List.append_assoc]
      · rw [obsRun_append, a2, Option.bind_some]
        unfold obsRun obsRun obsStep
        simp only
        rw [if_neg, b2]
        · rfl
        · intro hh
          obtain ⟨e, he, hf⟩ := (any_full a4 _).mp hh
          exact hnew e he hf
  | findName n =>
    show Good s (findName s n).1 T
    unfold findName
    split
    · exact Good.refl hi h
    · rename_i e t hl
      split
      · have he : e ∈ s.cache := mem_lowerBound (by rw [hl]; exact List.mem_cons_self ..)
        obtain ⟨T', a1, a2, a3, a4, a5, a6, a7, a8, a9⟩ := access_spec hi h he
        refine ⟨[.used e.pkt.full], T', by simp only [a9], obs_used h he a1, a2.congr rfl rfl rfl rfl rfl rfl rfl rfl rfl,
          a3.congr rfl rfl rfl rfl (Nat.le_refl _), a5, a6, by simp only [a7]; omega⟩
      · exact Good.refl hi h
  | findInterest f =>
    show Good s (findInterest s f).1 T
    unfold findInterest
    split
    · rename_i e he
      have he' : e ∈ s.cache := List.mem_of_find?_eq_some he
      exact ⟨[.usedExact e.pkt.full], T, rfl, obs_usedExact h he', hi.congr rfl rfl rfl rfl rfl rfl rfl rfl rfl,
        h.congr rfl rfl rfl rfl (Nat.le_refl _), rfl, rfl, by simp only; omega⟩
    · split
      · exact Good.refl hi h
      · simp only
        split
        · exact Good.refl hi h
        · rename_i e hsel
          have he : e ∈ s.cache := by
            have := selectChild_mem hsel
            unfold startFrom at this
            split at this
            · rename_i p hp
              rcases List.mem_cons.mp this with rfl | this
              · exact (List.takeWhile_prefix _).subset (List.mem_of_getLast? hp)
              · exact mem_lowerBound this
            · exact mem_lowerBound this
          obtain ⟨T', a1, a2, a3, a4, a5, a6, a7, a8, a9⟩ := access_spec hi h he
          refine ⟨[.used e.pkt.full], T', by simp only [a9], obs_used h he a1, a2.congr rfl rfl rfl rfl rfl rfl rfl rfl rfl,
            a3.congr rfl rfl rfl rfl (Nat.le_refl _), a5, a6, by simp only [a7]; omega⟩
  | erase n b =>
    show Good s (erase s n b) T
    unfold erase
    split
    · have hsub : ((lowerBound s n).takeWhile (fun e => n.isPrefixOf e.pkt.name)).Sublist s.cache :=
        (List.takeWhile_sublist _).trans (List.dropWhile_sublist _)
      obtain ⟨T', a1, a2, a3, a4, a5, a6, a7, a8, a9⟩ := eraseFold_spec ((lowerBound s n).takeWhile (fun e => n.isPrefixOf e.pkt.name)) hi h
        (fun e he => hsub.subset he) ((hsub.map _).nodup hi.cacheIds)
      obtain ⟨b1, b2, b3, b4, b5, b6, b7, b8⟩ := shrink_spec a3 a4 (by rw [a7]; exact her _ _ rfl)
      exact ⟨_, T', b4.trans a1, a2, b1, b2, b5.trans a6, b6.trans a7, by omega⟩
    · split
      · exact Good.refl hi h
      · rename_i e he
        obtain ⟨T', a1, a2, a3, a4, a5, a6, a7, a8, a9⟩ := eraseEntry_spec hi h (List.mem_of_find?_eq_some he)
        obtain ⟨b1, b2, b3, b4, b5, b6, b7, b8⟩ := shrink_spec a3 a4 (by rw [a7]; exact her _ _ rfl)
        exact ⟨_, T', b4.trans a1, a2, b1, b2, b5.trans a6, b6.trans a7, by omega⟩
  | advance dt =>
    exact ⟨[], T, by simp [step], rfl, hi.congr rfl rfl rfl rfl rfl rfl rfl rfl rfl,
      h.congr rfl rfl rfl rfl (Nat.le_add_right _ _), rfl, rfl, by simp [step]⟩
  | fire ev =>
    show Good s (fire s ev) T
    unfold fire
    split
    · exact Good.refl hi h
    · rename_i x hx
      have hxm : x ∈ s.events := List.mem_of_find?_eq_some hx
      have hxe : x.ev = ev := by simpa using List.find?_some hx
      subst hxe
      split
      · rename_i hd
        refine ⟨[], _, by simp, ?_, fired_inv hi hxm, fired_rel hi h hxm hd, rfl, rfl, by simp⟩
        simp only [obsRun, Option.some.injEq, List.map_map]
        apply List.map_congr_left
        intro t _
        simp [Function.comp, itemOf, setStale_pkt]
      · exact Good.refl hi h

theorem init_inv (policy : Policy) (limit : Nat) (hasSched : Bool) (hl : 1 ≤ limit) :
    Inv (init policy limit hasSched) ∧ Rel (init policy limit hasSched) [] := by
  obtain ⟨c, hcap, hc1, hc2⟩ : ∃ c, (if limit ≠ sizeMax ∧ minCapacity > limit then limit else minCapacity) = c ∧
      (minCapacity ≤ c ∨ c = limit) ∧ 1 ≤ c ∧ c ≤ limit := by
    by_cases h : limit ≠ sizeMax ∧ minCapacity > limit
    · exact ⟨limit, by rw [if_pos h], Or.inr rfl, hl, Nat.le_refl _⟩
    · refine ⟨minCapacity, by rw [if_neg h], Or.inl (Nat.le_refl _), by decide, ?_⟩
      unfold sizeMax minCapacity at *
      omega
  have hfree : (init policy limit hasSched).free = newSlots 0 c := by unfold init; rw [hcap]
  have hc : (init policy limit hasSched).capacity = c := by unfold init; rw [hcap]
  have hn : (init policy limit hasSched).nextSlot = c := by unfold init; rw [hcap]
  have hli : (init policy limit hasSched).limit = limit := rfl
  have hca : (init policy limit hasSched).cache = [] := rfl
  have hmap : (List.range c).map (fun i => 0 + i) = List.range c := by simp
  refine ⟨⟨rfl, rfl, ?_, ?_, List.Pairwise.nil, ?_, ?_, List.Pairwise.nil, ?_, ?_, ?_, ?_, ?_, ?_⟩, ⟨List.Perm.refl _, ?_, ?_⟩⟩
  · rw [hfree, newSlots_length, hc, hca]; simp
  · rw [hc, hli]; exact ⟨hc1, hc2⟩
  · rw [hfree, newSlots_ids, hmap, hca]
    simpa using List.nodup_range
  · rw [hfree, newSlots_ids, hn, hmap, hca]
    simp
  · intro x hx; exact absurd hx List.not_mem_nil
  · intro x hx; exact absurd hx List.not_mem_nil
  · intro x hx; exact absurd hx List.not_mem_nil
  · intro x hx; exact absurd hx List.not_mem_nil
  · intro f hf
    rw [hfree] at hf
    unfold newSlots at hf
    obtain ⟨i, _, rfl⟩ := List.mem_map.mp hf
    rfl
  · intro x hx; exact absurd hx List.not_mem_nil
  · unfold CleanupRel
    cases policy <;> simp [init]
  · intro t ht; exact absurd ht List.not_mem_nil

theorem run_good (ops : List Op) (hv : ValidOps ops) : ∀ {s : St} {T : List Tag}, Inv s → Rel s T →
    (s.limit < 16 → ∀ n b, Op.erase n b ∉ ops) →
    (s.policy = .persistent → s.nPackets + ops.length < s.limit + 1) →
    ∃ obs T', (run s ops).log = s.log ++ obs ∧ obsRun s.policy false (T.map itemOf) obs = some (T'.map itemOf) ∧
      Inv (run s ops) ∧ Rel (run s ops) T' ∧ (run s ops).policy = s.policy ∧ (run s ops).limit = s.limit ∧
      (run s ops).nPackets ≤ s.nPackets + ops.length := by
  induction ops with
  | nil =>
    intro s T hi h _ hp
    exact ⟨[], T, by simp [run], rfl, hi, h, rfl, rfl, by simp [run]⟩
  | cons op ops ih =>
    intro s T hi h her hp
    rw [List.length_cons] at hp
    have hp1 : s.policy = .persistent → s.nPackets < s.limit := fun hh => by have := hp hh; omega
    obtain ⟨o1, T1, a1, a2, a3, a4, a5, a6, a7⟩ := step_good hi h hp1 op (fun p w he => hv p w (by rw [he]; exact List.mem_cons_self ..))
      (fun n b he => by
        by_cases hl : s.limit < 16
        · exact absurd (by rw [he]; exact List.mem_cons_self ..) (her hl n b)
        · omega)
    obtain ⟨o2, T2, b1, b2, b3, b4, b5, b6, b7⟩ := ih (fun p w hm => hv p w (List.mem_cons_of_mem _ hm)) a3 a4
      (by rw [a6]; intro hl n b hm; exact her hl n b (List.mem_cons_of_mem _ hm))
      (by rw [a5, a6]; intro hh; have := hp hh; omega)
    refine ⟨o1 ++ o2, T2, ?_, ?_, b3, b4, b5.trans a5, b6.trans a6, ?_⟩
    · show (run (step s op) ops).log = _
      rw [b1, a1, List.append_assoc]
    · rw [obsRun_append, a2, Option.bind_some, ← a5]; exact b2
    · show (run (step s op) ops).nPackets ≤ _
      rw [List.length_cons]
      omega

theorem reach_good {policy : Policy} {limit : Nat} {hasSched : Bool} {s : St} (h : Reach policy limit hasSched s) :
    ∃ T, obsRun policy false [] s.log = some (T.map itemOf) ∧ Inv s ∧ Rel s T ∧ s.policy = policy ∧ s.limit = limit ∧
      (policy = .persistent → s.nPackets < limit) := by
  obtain ⟨hl, ops, hv, her, hp, rfl⟩ := h
  obtain ⟨i1, i2⟩ := init_inv policy limit hasSched hl
  obtain ⟨obs, T, a1, a2, a3, a4, a5, a6, a7⟩ := run_good ops hv i1 i2 her (by
    show policy = .persistent → 0 + ops.length < limit + 1
    intro hh; have := hp hh; omega)
  refine ⟨T, ?_, a3, a4, a5, a6, ?_⟩
  · have : (init policy limit hasSched).log = [] := rfl
    rw [a1, this, List.nil_append]
    exact a2
  · intro hh
    have := hp hh
    have h0 : (init policy limit hasSched).nPackets = 0 := rfl
    omega

end Ndn.Ims
