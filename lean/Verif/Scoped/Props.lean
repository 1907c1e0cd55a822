import Verif.Scoped.Spec
/-
C133: handles that cancel when they go out of scope. C134: connections that are cut when their handles go out of scope.
-/
namespace Ndn.Scoped
open Spec

section
variable {V : Type}

theorem find_split {l : Objs V} {i : Nat} {v : Option V} (h : find l i = some v) :
    ∃ a b, l = a ++ (i, v) :: b ∧ (∀ x, put l i x = a ++ (i, x) :: b) ∧ remove l i = a ++ b ∧ (∀ p ∈ a, p.1 ≠ i) := by
  induction l with
  | nil => cases h
  | cons p r ih =>
    obtain ⟨j, w⟩ := p
    simp only [find] at h
    by_cases e : j = i
    · rw [if_pos e] at h
      cases h
      subst e
      exact ⟨[], r, rfl, (fun x => by simp [put]), (by simp [remove]), (fun p hp => by cases hp)⟩
    · rw [if_neg e] at h
      obtain ⟨a, b, h1, h2, h3, h4⟩ := ih h
      refine ⟨(j, w) :: a, b, by rw [h1]; rfl, (fun x => by simp [put, e, h2]), (by simp [remove, e, h3]), ?_⟩
      intro p hp
      rcases List.mem_cons.mp hp with rfl | hp
      · exact e
      · exact h4 p hp

theorem find_put_same {l : Objs V} {i : Nat} {v : Option V} (h : find l i = some v) (x : Option V) : find (put l i x) i = some x := by
  induction l with
  | nil => cases h
  | cons p r ih =>
    obtain ⟨j, w⟩ := p
    simp only [find] at h
    by_cases e : j = i
    · simp [put, e, find]
    · rw [if_neg e] at h
      simp [put, e, find, ih h]

theorem find_put_other {l : Objs V} {i j : Nat} (hij : i ≠ j) (x : Option V) : find (put l i x) j = find l j := by
  induction l with
  | nil => rfl
  | cons p r ih =>
    obtain ⟨k, w⟩ := p
    by_cases e : k = i
    · subst e; simp [put, find, hij]
    · simp only [put, if_neg e, find, ih]

theorem put_none {l : Objs V} {i : Nat} (h : find l i = none) (x : Option V) : put l i x = l := by
  induction l with
  | nil => rfl
  | cons p r ih =>
    obtain ⟨k, w⟩ := p
    simp only [find] at h
    by_cases e : k = i
    · rw [if_pos e] at h; cases h
    · rw [if_neg e] at h
      simp [put, e, ih h]

theorem remove_none {l : Objs V} {i : Nat} (h : find l i = none) : remove l i = l := by
  induction l with
  | nil => rfl
  | cons p r ih =>
    obtain ⟨k, w⟩ := p
    simp only [find] at h
    by_cases e : k = i
    · rw [if_pos e] at h; cases h
    · rw [if_neg e] at h
      simp [remove, e, ih h]

/-- What an object gives up. -/
theorem held_put {l : Objs V} {i : Nat} {v : Option V} (h : find l i = some v) (x : Option V) :
    (v.toList ++ (put l i x).filterMap Prod.snd).Perm (x.toList ++ l.filterMap Prod.snd) := by
  obtain ⟨a, b, h1, h2, _, _⟩ := find_split h
  rw [h2, h1]
  have e2 : ∀ o : Option V, List.filterMap Prod.snd ((i, o) :: b) = o.toList ++ List.filterMap Prod.snd b := by intro o; cases o <;> rfl
  rw [List.filterMap_append, List.filterMap_append, e2, e2]
  generalize List.filterMap Prod.snd a = A
  generalize List.filterMap Prod.snd b = B
  generalize v.toList = X
  generalize x.toList = Y
  -- X ++ (A ++ (Y ++ B)) ~ Y ++ (A ++ (X ++ B))
  have p1 : (X ++ (A ++ (Y ++ B))).Perm (X ++ (Y ++ (A ++ B))) := by
    apply List.Perm.append_left
    rw [← List.append_assoc, ← List.append_assoc]
    exact List.Perm.append_right _ List.perm_append_comm
  have p2 : (Y ++ (A ++ (X ++ B))).Perm (Y ++ (X ++ (A ++ B))) := by
    apply List.Perm.append_left
    rw [← List.append_assoc, ← List.append_assoc]
    exact List.Perm.append_right _ List.perm_append_comm
  refine p1.trans (List.Perm.trans ?_ p2.symm)
  rw [← List.append_assoc X, ← List.append_assoc Y]
  exact List.Perm.append_right _ List.perm_append_comm

theorem held_remove {l : Objs V} {i : Nat} {v : Option V} (h : find l i = some v) :
    (v.toList ++ (remove l i).filterMap Prod.snd).Perm (l.filterMap Prod.snd) := by
  obtain ⟨a, b, h1, _, h3, _⟩ := find_split h
  rw [h3, h1]
  simp only [List.filterMap_append, List.filterMap_cons]
  cases v with
  | none => exact List.Perm.refl _
  | some y =>
    show (y :: (List.filterMap Prod.snd a ++ List.filterMap Prod.snd b)).Perm _
    exact List.perm_middle.symm

end

section
variable {T : Type} [DecidableEq T]

def places (s : St T) (t : T) : Nat := (held s).count t + s.plain.count t + s.called.count t

theorem count_put {l : Objs T} {i : Nat} {v : Option T} (h : find l i = some v) (x : Option T) (t : T) :
    v.toList.count t + ((put l i x).filterMap Prod.snd).count t = x.toList.count t + (l.filterMap Prod.snd).count t := by
  have := (held_put h x).count_eq t
  rwa [List.count_append, List.count_append] at this

theorem places_cancelIn (s : St T) (i : Nat) (t : T) : places (cancelIn s i) t = places s t := by
  unfold cancelIn
  split
  · rename_i x hx
    have := count_put hx none t
    simp only [places, held, List.count_append, Option.toList_some, Option.toList_none, List.count_nil] at this ⊢
    omega
  · rfl

theorem cancelIn_begun (s : St T) (i : Nat) : (cancelIn s i).begun = s.begun := by
  unfold cancelIn
  split <;> rfl

theorem cancelIn_find (s : St T) (i : Nat) : find (cancelIn s i).objs i = (find s.objs i).map (fun _ => none) := by
  unfold cancelIn
  split
  · rename_i x hx
    rw [find_put_same hx, hx]; rfl
  · rename_i hn
    cases hf : find s.objs i with
    | none => rfl
    | some v =>
      cases v with
      | none => rfl
      | some x => exact absurd hf (hn x)

theorem places_release (s : St T) (i : Nat) (t : T) : (release s i).1.toList.count t + places (release s i).2 t = places s t := by
  unfold release
  split
  · rename_i v hv
    have := count_put hv none t
    simp only [places, held, Option.toList_none, List.count_nil] at this ⊢
    omega
  · simp

theorem release_begun (s : St T) (i : Nat) : (release s i).2.begun = s.begun := by
  unfold release
  split <;> rfl

theorem release_find (s : St T) (i j : Nat) : find (release s i).2.objs j = if i = j then (find s.objs i).map (fun _ => none) else find s.objs j := by
  unfold release
  split
  · rename_i v hv
    split
    · rename_i e; subst e; rw [find_put_same hv, hv]; rfl
    · rename_i e; exact find_put_other e _
  · rename_i hn
    split
    · rename_i e; subst e; rw [hn]; rfl
    · rfl

theorem count_eraseIdx (l : List T) (n : Nat) (t x : T) (h : l[n]? = some x) : (l.eraseIdx n).count t + [x].count t = l.count t := by
  induction l generalizing n with
  | nil => cases h
  | cons a l ih =>
    cases n with
    | zero =>
      simp only [List.getElem?_cons_zero, Option.some.injEq] at h
      subst h
      simp only [List.eraseIdx_cons_zero, List.count_cons, List.count_nil]
      omega
    | succ n =>
      simp only [List.getElem?_cons_succ] at h
      have := ih n h
      simp only [List.eraseIdx_cons_succ, List.count_cons, List.count_nil] at this ⊢
      omega

theorem step_places (s : St T) (o : Op T) (ho : ∀ n, o ≠ .copyPlain n) (t : T) (h : s.begun.count t = places s t) :
    (step s o).begun.count t = places (step s o) t := by
  cases o with
  | begin i x =>
    simp only [step]
    split
    · simp only [places, held, List.count_append, List.filterMap_cons, List.count_cons, List.count_nil] at h ⊢
      omega
    · exact h
  | empty i =>
    simp only [step]
    split
    · exact h
    · exact h
  | moveNew i j =>
    simp only [step]
    split
    · have := places_release s j t
      rw [show ({ (release s j).2 with objs := (i, (release s j).1) :: (release s j).2.objs } : St T).begun = s.begun from release_begun s j, h, ← this]
      simp only [places, held]
      cases (release s j).1 with
      | none => simp
      | some x => simp only [Option.toList_some, List.filterMap_cons, List.count_cons, List.count_nil]; omega
    · exact h
  | assign i j =>
    simp only [step]
    split
    · exact h
    · rename_i hi
      have h1 := places_cancelIn s i t
      have h2 := places_release (cancelIn s i) j t
      have hf : find (release (cancelIn s i) j).2.objs i = some none := by
        rw [release_find]
        split
        · rename_i e
          subst e
          rw [cancelIn_find]
          cases hh : find s.objs j with
          | none => exact absurd hh hi
          | some v => rfl
        · rw [cancelIn_find]
          cases hh : find s.objs i with
          | none => exact absurd hh hi
          | some v => rfl
      have h3 := count_put hf (release (cancelIn s i) j).1 t
      show (release (cancelIn s i) j).2.begun.count t = _
      rw [release_begun, cancelIn_begun, h]
      simp only [places, held, Option.toList_none, List.count_nil] at h1 h2 h3 ⊢
      omega
  | cancel i =>
    simp only [step]
    have h1 := places_release s i t
    have hb := release_begun s i
    generalize release s i = r at h1 hb
    obtain ⟨v, s'⟩ := r
    dsimp only at h1 hb ⊢
    cases v with
    | none =>
      simp only [Option.toList_none, List.count_nil] at h1
      show s'.begun.count t = places s' t
      rw [hb]; omega
    | some x =>
      simp only [places, held, Option.toList_some, List.count_append] at h1 h ⊢
      rw [hb]; omega
  | release i =>
    simp only [step]
    have h1 := places_release s i t
    have hb := release_begun s i
    generalize release s i = r at h1 hb
    obtain ⟨v, s'⟩ := r
    dsimp only at h1 hb ⊢
    cases v with
    | none =>
      simp only [Option.toList_none, List.count_nil] at h1
      show s'.begun.count t = places s' t
      rw [hb]; omega
    | some x =>
      simp only [places, held, Option.toList_some, List.count_append] at h1 h ⊢
      rw [hb]; omega
  | cancelPlain n =>
    simp only [step]
    split
    · rename_i x hx
      have := count_eraseIdx s.plain n t x hx
      simp only [places, held, List.count_append] at h ⊢
      omega
    · exact h
  | copyPlain n => exact absurd rfl (ho n)
  | destroy i =>
    simp only [step]
    have h1 := places_cancelIn s i t
    have hb := cancelIn_begun s i
    have hf := cancelIn_find s i
    rw [hb, h, ← h1]
    cases hh : find s.objs i with
    | none =>
      rw [hh] at hf
      rw [remove_none hf, ← hb]
    | some v =>
      rw [hh] at hf
      have := (held_remove hf).count_eq t
      simp only [Option.toList_none, List.nil_append] at this
      simp only [places, held, this]

/-- The full claim: whatever is done with handles, each operation begun is in one place, no more and no less: in one object that exists, in
a plain handle that was released and not used yet, or among those cancelled, where it is once. -/
def C133_once_claim : Prop := ∀ (l : List (Op Nat)) (t : Nat),
  (run init l).begun.count t = (held (run init l)).count t + (run init l).plain.count t + (run init l).called.count t

/-- A plain handle is copied, and both copies are used: the function that cancels the operation is called twice. -/
theorem C133_once_counterexample : ¬ C133_once_claim := by
  intro h
  have := h [.begin 0 7, .release 0, .copyPlain 0, .cancelPlain 0, .cancelPlain 0] 7
  revert this
  decide

/-- The claim holds as long as plain handles are not copied: nothing is cancelled twice, nothing is lost, through any number of moves,
assignments (also of an object to itself), releases and destructions. -/
theorem C133_once_partial (l : List (Op T)) (hl : ∀ n, .copyPlain n ∉ l) (t : T) :
    (run init l).begun.count t = (held (run init l)).count t + (run init l).plain.count t + (run init l).called.count t := by
  suffices H : ∀ (l : List (Op T)) (s : St T), (∀ n, .copyPlain n ∉ l) → s.begun.count t = places s t → (run s l).begun.count t = places (run s l) t by
    exact H l init hl rfl
  intro l
  induction l with
  | nil => intro s _ h; exact h
  | cons o l ih =>
    intro s hl h
    refine ih (step s o) (fun n hn => hl n (List.mem_cons_of_mem _ hn)) (step_places s o ?_ t h)
    rintro n rfl
    exact hl n List.mem_cons_self

/-- When an object is destroyed, assigned to or cancelled, the operation it held is cancelled, at once; moving and releasing cancel
nothing. -/
theorem C133_when (s : St T) (i j : Nat) (t : T) (h : find s.objs i = some (some t)) :
    t ∈ (step s (.destroy i)).called ∧ t ∈ (step s (.assign i j)).called ∧ t ∈ (step s (.cancel i)).called ∧
    (∀ k, (step s (.moveNew k i)).called = s.called) ∧ (step s (.release i)).called = s.called ∧ (step s (.release i)).plain = s.plain ++ [t] := by
  have hc : (cancelIn s i).called = s.called ++ [t] := by unfold cancelIn; rw [h]
  have hr : ∀ (s : St T) k, (release s k).2.called = s.called := by intro s k; unfold release; split <;> rfl
  refine ⟨?_, ?_, ?_, ?_, ?_, ?_⟩
  · simp only [step]
    rw [hc]; simp
  · simp only [step]
    rw [if_neg (by rw [h]; intro e; cases e)]
    show t ∈ (release (cancelIn s i) j).2.called
    rw [hr, hc]; simp
  · simp [step, release, h]
  · intro k
    simp only [step]
    split
    · exact hr s i
    · rfl
  · simp [step, release, h]
  · simp [step, release, h]

/-- What was moved is held by the object it was moved to, and by no other. -/
theorem C133_moved (s : St T) (i j : Nat) (v : Option T) (hij : i ≠ j) (h : find s.objs j = some v) :
    (find s.objs i = none → find (step s (.moveNew i j)).objs i = some v ∧ find (step s (.moveNew i j)).objs j = some none) ∧
    (find s.objs i ≠ none → find (step s (.assign i j)).objs i = some v ∧ find (step s (.assign i j)).objs j = some none) := by
  constructor
  · intro hi
    simp only [step, if_pos hi, release, h, find, if_true]
    exact ⟨trivial, by rw [if_neg hij, find_put_same h]⟩
  · intro hi
    simp only [step, if_neg hi]
    have hj : find (cancelIn s i).objs j = some v := by
      unfold cancelIn
      split
      · rw [find_put_other hij, h]
      · exact h
    have e1 : (release (cancelIn s i) j).1 = v := by unfold release; rw [hj]
    have hfi : find (release (cancelIn s i) j).2.objs i = some none := by
      rw [release_find, if_neg (Ne.symm hij), cancelIn_find]
      cases hh : find s.objs i with
      | none => exact absurd hh hi
      | some v => rfl
    rw [e1]
    refine ⟨find_put_same hfi v, ?_⟩
    rw [find_put_other hij, release_find, if_pos rfl, hj]
    rfl

example : run init [.begin 0 7, .begin 1 8, .assign 0 1, .destroy 1, .moveNew 2 0, .destroy 0, .assign 2 2] =
    (⟨[(2, none)], [], [7, 8], [7, 8]⟩ : St Nat) := by decide

end

/-! ### C134 -/

theorem disc_live {s : CSt} {o : Option Nat} {c : Nat} : c ∈ (disc s o).live ↔ c ∈ s.live ∧ o ≠ some c := by
  cases o with
  | none => simp [disc]
  | some x =>
    simp only [disc, List.mem_filter, decide_eq_true_eq, ne_eq, Option.some.injEq]
    constructor
    · rintro ⟨h1, h2⟩; exact ⟨h1, fun e => h2 e.symm⟩
    · rintro ⟨h1, h2⟩; exact ⟨h1, fun e => h2 e.symm⟩

theorem disc_rest (s : CSt) (o : Option Nat) : (disc s o).objs = s.objs ∧ (disc s o).released = s.released ∧ (disc s o).given = s.given ∧
    (disc s o).next = s.next := by
  cases o <;> exact ⟨rfl, rfl, rfl, rfl⟩

theorem conn_mem {s : CSt} {i c : Nat} (h : conn s i = some c) : (i, some c) ∈ s.objs := by
  unfold conn at h
  cases hf : find s.objs i with
  | none => rw [hf] at h; cases h
  | some v =>
    rw [hf] at h
    obtain ⟨a, b, h1, _⟩ := find_split hf
    change v = some c at h
    rw [h1, h]; simp

/-- What an object holds is still held by it, or it was the object changed. -/
theorem mem_put {s : CSt} {i k : Nat} {c : Nat} {x : Option Nat} (h : (k, some c) ∈ s.objs) : (k, some c) ∈ put s.objs i x ∨ conn s i = some c := by
  cases hf : find s.objs i with
  | none => rw [put_none hf]; exact .inl h
  | some v =>
    obtain ⟨a, b, h1, h2, _⟩ := find_split hf
    rw [h2]
    rw [h1] at h
    rcases List.mem_append.mp h with h | h
    · exact .inl (List.mem_append_left _ h)
    · rcases List.mem_cons.mp h with h | h
      · right
        unfold conn
        rw [hf]
        injection h with _ h
        exact h.symm
      · exact .inl (List.mem_append_right _ (List.mem_cons_of_mem _ h))

theorem mem_remove {s : CSt} {i k : Nat} {c : Nat} (h : (k, some c) ∈ s.objs) : (k, some c) ∈ remove s.objs i ∨ conn s i = some c := by
  cases hf : find s.objs i with
  | none => rw [remove_none hf]; exact .inl h
  | some v =>
    obtain ⟨a, b, h1, _, h3, _⟩ := find_split hf
    rw [h3]
    rw [h1] at h
    rcases List.mem_append.mp h with h | h
    · exact .inl (List.mem_append_left _ h)
    · rcases List.mem_cons.mp h with h | h
      · right
        unfold conn
        rw [hf]
        injection h with _ h
        exact h.symm
      · exact .inl (List.mem_append_right _ h)

theorem mem_put_other {l : Objs Nat} {i k : Nat} {v x : Option Nat} (hki : k ≠ i) (h : (k, v) ∈ l) : (k, v) ∈ put l i x := by
  cases hf : find l i with
  | none => rw [put_none hf]; exact h
  | some w =>
    obtain ⟨a, b, h1, h2, _⟩ := find_split hf
    rw [h2]
    rw [h1] at h
    rcases List.mem_append.mp h with h | h
    · exact List.mem_append_left _ h
    · rcases List.mem_cons.mp h with h | h
      · injection h with e _; exact absurd e hki
      · exact List.mem_append_right _ (List.mem_cons_of_mem _ h)

theorem put_mem {s : CSt} {i : Nat} {x : Option Nat} (h : find s.objs i ≠ none) : (i, x) ∈ put s.objs i x := by
  cases hf : find s.objs i with
  | none => exact absurd hf h
  | some v =>
    obtain ⟨a, b, _, h2, _⟩ := find_split hf
    rw [h2]; simp

/-- The full claim: a connection that was put in a ScopedConnection, and was not released from one, is connected only as long as there is a
ScopedConnection that holds it. -/
def C134_scoped_claim : Prop := ∀ (l : List COp) (c : Nat), c ∈ (crun cinit l).live → c ∈ (crun cinit l).given → c ∉ (crun cinit l).released →
  Holds (crun cinit l) c

/-- One ScopedConnection is assigned to another one: the connection that the latter had is forgotten, but not disconnected, so its handler
goes on being called after both are destroyed. -/
theorem C134_scoped_counterexample : ¬ C134_scoped_claim := by
  intro h
  obtain ⟨i, hi⟩ := h [.connect, .make 0 0, .connect, .make 1 1, .assignMove 0 1, .destroy 0, .destroy 1] 0 (by decide) (by decide) (by decide)
  have : (crun cinit [.connect, .make 0 0, .connect, .make 1 1, .assignMove 0 1, .destroy 0, .destroy 1]).objs = [] := by decide
  rw [this] at hi
  cases hi

/-- The claim holds as long as no ScopedConnection is assigned to one that is connected. -/
theorem C134_scoped_partial (l : List COp)
    (hl : ∀ l1 i j l2, l = l1 ++ .assignMove i j :: l2 → connected (crun cinit l1) (conn (crun cinit l1) i) = false) (c : Nat)
    (h1 : c ∈ (crun cinit l).live) (h2 : c ∈ (crun cinit l).given) (h3 : c ∉ (crun cinit l).released) : Holds (crun cinit l) c := by
  suffices H : ∀ (l : List COp) (s : CSt), (∀ l1 i j l2, l = l1 ++ .assignMove i j :: l2 → connected (crun s l1) (conn (crun s l1) i) = false) →
      ((∀ c ∈ s.live, c < s.next) ∧ (∀ c ∈ s.given, c < s.next) ∧ ∀ c, c ∈ s.live → c ∈ s.given → c ∉ s.released → Holds s c) →
      ((∀ c ∈ (crun s l).live, c < (crun s l).next) ∧ (∀ c ∈ (crun s l).given, c < (crun s l).next) ∧
        ∀ c, c ∈ (crun s l).live → c ∈ (crun s l).given → c ∉ (crun s l).released → Holds (crun s l) c) by
    exact (H l cinit hl ⟨(fun c h => by cases h), (fun c h => by cases h), (fun c h => by cases h)⟩).2.2 c h1 h2 h3
  clear h1 h2 h3 hl c l
  intro l
  induction l with
  | nil => intro s _ h; exact h
  | cons o l ih =>
    intro s hl h
    refine ih (cstep s o) (fun l1 i j l2 e => hl (o :: l1) i j l2 (by rw [e]; rfl)) ?_
    obtain ⟨hlt, hgt, hinv⟩ := h
    have hmono : ∀ (o' : Option Nat), ∀ c ∈ (disc s o').live, c < s.next := fun o' c hc => hlt c (disc_live.mp hc).1
    cases o with
    | connect =>
      refine ⟨?_, ?_, ?_⟩
      · intro c hc
        rcases List.mem_append.mp hc with hc | hc
        · exact Nat.lt_succ_of_lt (hlt c hc)
        · rw [List.mem_singleton.mp hc]; exact Nat.lt_succ_self _
      · exact fun c hc => Nat.lt_succ_of_lt (hgt c hc)
      · intro c hc hg hr
        rcases List.mem_append.mp hc with hc | hc
        · exact hinv c hc hg hr
        · rw [List.mem_singleton.mp hc] at hg
          exact absurd (hgt _ hg) (Nat.lt_irrefl _)
    | make i x =>
      simp only [cstep]
      split
      · rename_i hi
        refine ⟨hlt, ?_, ?_⟩
        · intro c hc
          rcases List.mem_cons.mp hc with rfl | hc
          · exact hi.2
          · exact hgt c hc
        · intro c hc hg hr
          rcases List.mem_cons.mp hg with rfl | hg
          · exact ⟨i, List.mem_cons_self⟩
          · obtain ⟨k, hk⟩ := hinv c hc hg hr
            exact ⟨k, List.mem_cons_of_mem _ hk⟩
      · exact ⟨hlt, hgt, hinv⟩
    | empty i =>
      simp only [cstep]
      split
      · refine ⟨hlt, hgt, fun c hc hg hr => ?_⟩
        obtain ⟨k, hk⟩ := hinv c hc hg hr
        exact ⟨k, List.mem_cons_of_mem _ hk⟩
      · exact ⟨hlt, hgt, hinv⟩
    | moveNew i j =>
      simp only [cstep]
      split
      · refine ⟨hlt, hgt, fun c hc hg hr => ?_⟩
        obtain ⟨k, hk⟩ := hinv c hc hg hr
        rcases mem_put (i := j) (x := none) hk with hk | hk
        · exact ⟨k, List.mem_cons_of_mem _ hk⟩
        · exact ⟨i, by rw [hk]; exact List.mem_cons_self⟩
      · exact ⟨hlt, hgt, hinv⟩
    | assign i x =>
      simp only [cstep]
      split
      · exact ⟨hlt, hgt, hinv⟩
      · rename_i hi
        split
        · exact ⟨hlt, hgt, hinv⟩
        · obtain ⟨d1, d2, d3, d4⟩ := disc_rest s (conn s i)
          refine ⟨?_, ?_, ?_⟩
          · intro c hc; show c < (disc s (conn s i)).next; rw [d4]; exact hmono _ c hc
          · intro c hc
            show c < (disc s (conn s i)).next
            rw [d4]
            rcases List.mem_cons.mp hc with rfl | hc
            · omega
            · exact hgt c hc
          · intro c hc hg hr
            obtain ⟨hc1, hc2⟩ := disc_live.mp hc
            change c ∉ (disc s (conn s i)).released at hr
            rw [d2] at hr
            rcases List.mem_cons.mp hg with rfl | hg
            · exact ⟨i, put_mem (fun e => hi (.inl e))⟩
            · obtain ⟨k, hk⟩ := hinv c hc1 hg hr
              rcases mem_put (i := i) (x := some x) hk with hk | hk
              · exact ⟨k, hk⟩
              · exact absurd hk hc2
    | assignMove i j =>
      have hnc := hl [] i j l rfl
      change connected s (conn s i) = false at hnc
      simp only [cstep]
      split
      · exact ⟨hlt, hgt, hinv⟩
      · rename_i hi
        refine ⟨hlt, hgt, fun c hc hg hr => ?_⟩
        have hne : conn s i ≠ some c := by
          intro e
          rw [e] at hnc
          simp only [connected, List.contains_eq_mem, decide_eq_false_iff_not] at hnc
          exact hnc hc
        obtain ⟨k, hk⟩ := hinv c hc hg hr
        show ∃ i', (i', some c) ∈ (if i = j then put s.objs i none else put (put s.objs i (conn s j)) j none)
        split
        · exact ⟨k, (mem_put hk).resolve_right hne⟩
        · rename_i hij
          have hk1 := (mem_put (i := i) (x := conn s j) hk).resolve_right hne
          by_cases e : conn s j = some c
          · have := put_mem (x := conn s j) hi
            rw [e] at this
            exact ⟨i, mem_put_other hij (by rw [e]; exact this)⟩
          · rcases mem_put (s := { s with objs := put s.objs i (conn s j) }) (i := j) (x := none) hk1 with hk2 | hk2
            · exact ⟨k, hk2⟩
            · unfold conn at hk2
              dsimp only at hk2
              rw [find_put_other hij] at hk2
              exact absurd hk2 e
    | disconnect i =>
      obtain ⟨d1, d2, d3, d4⟩ := disc_rest s (conn s i)
      refine ⟨?_, ?_, ?_⟩
      · intro c hc; simp only [cstep]; rw [d4]; exact hmono _ c hc
      · intro c hc; simp only [cstep] at hc ⊢; rw [d3] at hc; rw [d4]; exact hgt c hc
      · intro c hc hg hr
        simp only [cstep, Holds] at hc hg hr ⊢
        rw [d3] at hg; rw [d2] at hr; rw [d1]
        exact hinv c (disc_live.mp hc).1 hg hr
    | disconnectPlain x =>
      obtain ⟨d1, d2, d3, d4⟩ := disc_rest s (some x)
      refine ⟨?_, ?_, ?_⟩
      · intro c hc; simp only [cstep]; rw [d4]; exact hmono _ c hc
      · intro c hc; simp only [cstep] at hc ⊢; rw [d3] at hc; rw [d4]; exact hgt c hc
      · intro c hc hg hr
        simp only [cstep, Holds] at hc hg hr ⊢
        rw [d3] at hg; rw [d2] at hr; rw [d1]
        exact hinv c (disc_live.mp hc).1 hg hr
    | release i =>
      refine ⟨hlt, hgt, fun c hc hg hr => ?_⟩
      change c ∉ (conn s i).toList ++ s.released at hr
      rw [List.mem_append, not_or] at hr
      obtain ⟨k, hk⟩ := hinv c hc hg hr.2
      rcases mem_put (i := i) (x := none) hk with hk | hk
      · exact ⟨k, hk⟩
      · rw [hk] at hr
        exact absurd (List.mem_singleton.mpr rfl) hr.1
    | destroy i =>
      obtain ⟨d1, d2, d3, d4⟩ := disc_rest s (conn s i)
      refine ⟨?_, ?_, ?_⟩
      · intro c hc; simp only [cstep] at hc ⊢; rw [d4]; exact hmono _ c hc
      · intro c hc; simp only [cstep] at hc ⊢; rw [d3] at hc; rw [d4]; exact hgt c hc
      · intro c hc hg hr
        simp only [cstep] at hc hg hr
        rw [d3] at hg; rw [d2] at hr
        obtain ⟨hc1, hc2⟩ := disc_live.mp hc
        obtain ⟨k, hk⟩ := hinv c hc1 hg hr
        rcases mem_remove (i := i) hk with hk | hk
        · exact ⟨k, hk⟩
        · exact absurd hk hc2

/-- A ScopedConnection that is destroyed is disconnected, and so is one that another connection is assigned to; one that is released or
moved from does not disconnect. -/
theorem C134_when (s : CSt) (i c : Nat) (h : conn s i = some c) :
    c ∉ (cstep s (.destroy i)).live ∧ c ∉ (cstep s (.disconnect i)).live ∧
    (∀ d, d < s.next → d ≠ c → c ∈ s.live → c ∉ (cstep s (.assign i d)).live) ∧
    (cstep s (.release i)).live = s.live ∧ conn (cstep s (.release i)) i = none ∧ ∀ k, (cstep s (.moveNew k i)).live = s.live := by
  have hf : find s.objs i = some (some c) := by
    unfold conn at h
    cases hh : find s.objs i with
    | none => rw [hh] at h; cases h
    | some v => rw [hh] at h; change v = some c at h; rw [h]
  refine ⟨?_, ?_, ?_, rfl, ?_, ?_⟩
  · intro hc; exact (disc_live.mp hc).2 h
  · intro hc; exact (disc_live.mp hc).2 h
  · intro d hd hdc hl hc
    simp only [cstep] at hc
    rw [if_neg (by rw [hf]; rintro (e | e); · cases e
                   · omega)] at hc
    rw [if_neg (by
      rw [h]
      simp [same, connected, hl, Ne.symm hdc])] at hc
    exact (disc_live.mp hc).2 h
  · simp only [cstep, conn]
    rw [find_put_same hf]; rfl
  · intro k
    simp only [cstep]
    split <;> rfl

/-- A connection that is moved is held by the object it is moved to, and not by the one it is moved from. -/
theorem C134_moved (s : CSt) (i j c : Nat) (hij : i ≠ j) (h : conn s j = some c) :
    (find s.objs i = none → conn (cstep s (.moveNew i j)) i = some c ∧ conn (cstep s (.moveNew i j)) j = none) ∧
    (find s.objs i ≠ none → conn (cstep s (.assignMove i j)) i = some c ∧ conn (cstep s (.assignMove i j)) j = none) := by
  have hf : find s.objs j = some (some c) := by
    unfold conn at h
    cases hh : find s.objs j with
    | none => rw [hh] at h; cases h
    | some v => rw [hh] at h; change v = some c at h; rw [h]
  constructor
  · intro hi
    have e : cstep s (.moveNew i j) = { s with objs := (i, some c) :: put s.objs j none } := by
      simp only [cstep, if_pos hi, h]
    rw [e]
    simp only [conn, find, if_true, if_neg hij, find_put_same hf]
    exact ⟨rfl, rfl⟩
  · intro hi
    have e : cstep s (.assignMove i j) = { s with objs := put (put s.objs i (some c)) j none } := by
      simp only [cstep, if_neg hi, if_neg hij, h]
    rw [e]
    obtain ⟨v, hv⟩ := Option.ne_none_iff_exists'.mp hi
    simp only [conn]
    rw [find_put_other (Ne.symm hij), find_put_same hv, find_put_same (v := some c) (by rw [find_put_other hij]; exact hf)]
    exact ⟨rfl, rfl⟩

/-- A connection is cut only by someone who disconnects it, or by an object that holds it. -/
theorem C134_only (s : CSt) (o : COp) (c : Nat) (h : c ∈ s.live) (hn : c ∉ (cstep s o).live) :
    o = .disconnectPlain c ∨ ∃ i, conn s i = some c ∧ (o = .disconnect i ∨ o = .destroy i ∨ ∃ d, d ≠ c ∧ o = .assign i d) := by
  have key : ∀ o', c ∉ (disc s o').live → o' = some c := by
    intro o' ho
    by_cases e : o' = some c
    · exact e
    · exact absurd (disc_live.mpr ⟨h, e⟩) ho
  cases o with
  | connect => exact absurd (List.mem_append_left _ h) hn
  | make i x => simp only [cstep] at hn; split at hn <;> exact absurd h hn
  | empty i => simp only [cstep] at hn; split at hn <;> exact absurd h hn
  | moveNew i j => simp only [cstep] at hn; split at hn <;> exact absurd h hn
  | assign i d =>
    simp only [cstep] at hn
    split at hn
    · exact absurd h hn
    · split at hn
      · exact absurd h hn
      · rename_i hs
        have e := key _ hn
        refine .inr ⟨i, e, .inr (.inr ⟨d, ?_, rfl⟩)⟩
        rintro rfl
        rw [e] at hs
        simp [same] at hs
  | assignMove i j => simp only [cstep] at hn; split at hn <;> exact absurd h hn
  | disconnect i => exact .inr ⟨i, key _ hn, .inl rfl⟩
  | disconnectPlain x =>
    have e := key _ hn
    injection e with e
    exact .inl (by rw [e])
  | release i => exact absurd h hn
  | destroy i => exact .inr ⟨i, key _ hn, .inr (.inl rfl)⟩

example : crun cinit [.connect, .make 0 0, .connect, .assign 0 1, .moveNew 2 0, .connect, .destroy 0] = ⟨[1, 2], 3, [(2, some 1)], [], [1, 0]⟩ := by
  decide

end Ndn.Scoped
