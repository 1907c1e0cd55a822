import Verif.Face.Filters
/-
Deliveries of Interests to filters (C50).
-/
namespace Ndn.Face
open Spec
open scoped List
variable {I D : Type} {E : Env I D}

theorem filterMatch_iff (f : Filter) (app : Bool) (i : I) :
    filterMatch E f app i = true ↔ Accepts f (E.name i) ∧ (app = true → f.loopback = true) := by
  unfold filterMatch Filter.doesMatch Accepts
  rw [Bool.and_eq_true, Bool.and_eq_true, List.isPrefixOf_iff_prefix]
  constructor
  · rintro ⟨h1, ⟨rest, h2⟩, h3⟩
    refine ⟨⟨rest, h2.symm, ?_⟩, ?_⟩
    · intro r hr
      rw [hr, ← h2] at h3
      simpa using h3
    · intro ha; simpa [ha] using h1
  · rintro ⟨⟨rest, h2, h3⟩, h1⟩
    refine ⟨?_, ⟨rest, h2.symm⟩, ?_⟩
    · cases app
      · rfl
      · simp [h1]
    · cases hr : f.regex with
      | none => rfl
      | some r =>
        rw [h2]
        simpa using h3 r hr

theorem dispatch_calm {boom : Nat → Bool} (hb : ∀ x, boom x = false) (e : Entry I) (fs : List (Nat × Filter)) :
    (dispatch (D := D) E boom e fs).2 =
      (fs.filter (fun x => filterMatch E x.2 e.app e.interest)).map (fun x => .interest x.1 e.id e.interest) := by
  induction fs generalizing e with
  | nil => rfl
  | cons x fs ih =>
    obtain ⟨fid, f⟩ := x
    simp only [dispatch]
    by_cases hm : filterMatch E f e.app e.interest = true
    · simp [hm, hb, ih]
    · simp [hm, ih]

/-- No record is made, no Interest delivered, no assertion on identifiers fails. -/
def quietObs : Obs I D → Bool
  | .expressed _ _ _ | .arrived _ _ _ | .interest _ _ _ | .dupRecord => false
  | _ => true

def made (app : Bool) (id : Nat) (i : I) (t : Nat) : Obs I D :=
  if app then .expressed id i t else .arrived id i t

/-- A step makes at most one record, and delivers only its Interest. -/
def Kind (E : Env I D) (s s' : St I D) (calm : Prop) : Prop :=
  (∃ δ, s'.log = s.log ++ δ ∧ ∀ o ∈ δ, quietObs o = true) ∨
  (∃ app id i x ds, s'.log = s.log ++ made app id i s.now :: (x ++ ds) ∧ (∀ o ∈ x, quietObs o = true ∧ noFilt o = true) ∧
    id ∉ creIds s.log ∧
    ((ds = [] ∧ app = true ∧ E.sizeI i > maxPacket) ∨
     ((app = true → E.sizeI i ≤ maxPacket) ∧ ∃ boom e, ds = (dispatch E boom e s.filters).2 ∧ e.id = id ∧ e.interest = i ∧ e.app = app ∧
      (calm → ∀ x, boom x = false))))

theorem quiet_satisfy (d : D) (boom : Nat → Bool) (es : List (Entry I)) :
    ∀ o ∈ (satisfy E d boom es).log, quietObs o = true := by
  intro o ho
  obtain ⟨_, _, _, _, rfl⟩ := satisfy_log d boom es o ho
  rfl

theorem quiet_nackLoop (n : Nack I) (boom : Nat → Bool) (es : List (Entry I)) :
    ∀ o ∈ (nackLoop (D := D) E n boom es).log, quietObs o = true := by
  intro o ho
  have := nackLoop_log n boom es o ho
  cases o <;> simp_all [nackish, quietObs]

theorem kind_handle {s : St I D} (hA : InvA E s) (hF : InvF E s) (boom : Nat → Bool) (p : Post I D)
    (ps : List (Post I D)) (hq : s.queue = p :: ps) :
    Kind E s (handle E boom { s with queue := ps } p) (∀ x, boom x = false) := by
  cases p with
  | express id i =>
    right
    obtain ⟨e, δ, hs, hc, ha, hle, hd⟩ := doExpress_shape (E := E) boom { s with queue := ps } id i
    simp only [core, Prod.mk.injEq] at hc
    have hf : id ∉ creIds s.log := by
      have := hA.nodup
      rw [hq, List.nodup_append] at this
      intro hh
      exact this.2.2 id hh id (by simp [qIds]) rfl
    have hdup : (putEntry e s.pit).2 = false := by
      apply (putEntry_fresh e s.pit _).1
      intro x hx hh
      exact hf (hc.1 ▸ hh ▸ pit_ids_created hA hx)
    simp only [handle]
    rcases hd with ⟨hz, hn, hδ⟩ | ⟨hz, he, hδ⟩
    · simp only [hdup, dupObs, Bool.false_eq_true, if_false, List.nil_append] at hδ
      refine ⟨true, id, i, [.oversized], [], by rw [hs, hδ]; rfl, by simp [quietObs, noFilt], hf, Or.inl ⟨rfl, rfl, hz⟩⟩
    · simp only [hdup, dupObs, Bool.false_eq_true, if_false, List.nil_append] at hδ
      refine ⟨true, id, i, [.sentInterest i], _, by rw [hs, hδ]; rfl, by simp [quietObs, noFilt], hf,
        Or.inr ⟨fun _ => by omega, boom, _, rfl, rfl, rfl, rfl, fun h => h⟩⟩
  | cancel id => exact Or.inl ⟨[.cancelled id], rfl, by simp [quietObs]⟩
  | removeAll => exact Or.inl ⟨[.cleared], rfl, by simp [quietObs]⟩
  | putData d =>
    left
    obtain ⟨δ, hs, hd⟩ := doPutData_shape (E := E) boom { s with queue := ps } d
    simp only [handle]
    rw [hs]
    refine ⟨.putData d :: (satisfy E d boom s.pit).log ++ δ, by simp, ?_⟩
    intro o ho
    rcases List.mem_append.1 ho with ho | ho
    · rcases List.mem_cons.1 ho with ho | ho
      · subst ho; rfl
      · exact quiet_satisfy _ _ _ _ ho
    · rcases hd with rfl | rfl | rfl <;> simp at ho <;> subst ho <;> rfl
  | putNack n =>
    left
    obtain ⟨δ, hs, hd⟩ := doPutNack_shape (E := E) boom { s with queue := ps } n
    simp only [handle]
    rw [hs]
    refine ⟨.putNack n :: (nackLoop (D := D) E n boom s.pit).log ++ δ, by simp, ?_⟩
    intro o ho
    rcases List.mem_append.1 ho with ho | ho
    · rcases List.mem_cons.1 ho with ho | ho
      · subst ho; rfl
      · exact quiet_nackLoop _ _ _ _ ho
    · rcases hd with rfl | rfl | ⟨m, rfl⟩ <;> simp at ho <;> subst ho <;> rfl
  | setFilter fid f =>
    left
    have := (invF_set (s' := handle E boom { s with queue := ps } (.setFilter fid f)) hF fid f
      (dupObs (putFilter fid f s.filters).2) rfl (noFilt_dup _) rfl (Or.inl ⟨hq, rfl⟩) (fun r hr => Or.inl hr)).2
    refine ⟨[.filterSet fid f], ?_, by simp [quietObs]⟩
    simp only [handle]
    rw [this]
    simp [dupObs]
  | unsetFilter fid => exact Or.inl ⟨[.filterUnset fid], rfl, by simp [quietObs]⟩
  | unregister id =>
    left
    obtain ⟨δ, fs, cs, hs, hd⟩ := doUnregister_shape { s with queue := ps } id
    refine ⟨δ, by simp only [handle]; rw [hs], ?_⟩
    rcases hd with ⟨rfl, _⟩ | ⟨r, _, _, _, ⟨_, rfl, _⟩ | ⟨_, rfl, _⟩⟩ <;> simp [quietObs]
  | shutdown => exact Or.inl ⟨[.cleared], rfl, by simp [quietObs]⟩

theorem kind_step {s : St I D} (hA : InvA E s) (hF : InvF E s) (op : Op I D) : Kind E s (step E s op) (Calm op) := by
  cases op with
  | express i => exact Or.inl ⟨[.callExpress (s.lastPit + 1) i], rfl, by simp [quietObs]⟩
  | cancel id =>
    simp only [step]
    split
    · exact Or.inl ⟨[.callCancel id], rfl, by simp [quietObs]⟩
    · exact Or.inl ⟨[], by simp, by simp⟩
  | removeAll => exact Or.inl ⟨[], by simp [step], by simp⟩
  | putData d => exact Or.inl ⟨[], by simp [step], by simp⟩
  | putNack n => exact Or.inl ⟨[], by simp [step], by simp⟩
  | setFilter f => exact Or.inl ⟨[], by simp [step], by simp⟩
  | unsetFilter fid =>
    simp only [step]
    split
    · exact Or.inl ⟨[.callUnset fid], rfl, by simp [quietObs]⟩
    · exact Or.inl ⟨[], by simp, by simp⟩
  | register pfx f => exact Or.inl ⟨[.callRegister (s.lastReg + 1)], rfl, by simp [quietObs]⟩
  | unregister id =>
    simp only [step]
    split
    · exact Or.inl ⟨[.callUnregister id], rfl, by simp [quietObs]⟩
    · exact Or.inl ⟨[], by simp, by simp⟩
  | shutdown => exact Or.inl ⟨[], by simp [step], by simp⟩
  | run boom =>
    simp only [step]
    split
    · exact Or.inl ⟨[], by simp, by simp⟩
    · rename_i p ps hq
      exact kind_handle hA hF boom p ps hq
  | fire id boom =>
    left
    simp only [step, doFire]
    split
    · exact ⟨[], by simp, by simp⟩
    · split
      · split
        · exact ⟨_, rfl, by simp [quietObs]⟩
        · exact ⟨_, rfl, by simp [quietObs]⟩
      · exact ⟨[], by simp, by simp⟩
  | recvInterest i boom =>
    right
    obtain ⟨e, δ, hs, hcore, ha, hle, he, hδ⟩ := doArrive_shape (E := E) boom s i
    simp only [core, Prod.mk.injEq] at hcore
    have hf : s.lastPit + 1 ∉ creIds s.log := by
      intro hh
      have := hA.le (s.lastPit + 1) (by simp [hh])
      omega
    have hdup : (putEntry e s.pit).2 = false := by
      apply (putEntry_fresh e s.pit _).1
      intro x hx hh
      exact hf (hcore.1 ▸ hh ▸ pit_ids_created hA hx)
    simp only [hdup, dupObs, Bool.false_eq_true, if_false, List.nil_append] at hδ
    simp only [step]
    exact ⟨false, s.lastPit + 1, i, [], _, by rw [hs, hδ]; rfl, by simp, hf,
      Or.inr ⟨by simp, boom, _, rfl, rfl, rfl, rfl, fun h => h⟩⟩
  | recvData d boom =>
    left
    refine ⟨.gotData d :: (satisfy E d boom s.pit).log, rfl, ?_⟩
    intro o ho
    rcases List.mem_cons.1 ho with ho | ho
    · subst ho; rfl
    · exact quiet_satisfy _ _ _ _ ho
  | recvNack n boom =>
    left
    refine ⟨.gotNack n :: (nackLoop (D := D) E n boom s.pit).log, rfl, ?_⟩
    intro o ho
    rcases List.mem_cons.1 ho with ho | ho
    · subst ho; rfl
    · exact quiet_nackLoop _ _ _ _ ho
  | reply k ok =>
    left
    simp only [step, doReply]
    split
    · exact ⟨[], by simp, by simp⟩
    · split
      · split
        · exact ⟨_, rfl, by simp [quietObs]⟩
        · rename_i rid pfx _ _ f _
          have hb : (putFilter (s.lastFilter + 1) f s.filters).2 = false := by
            apply (putFilter_fresh _ _ _ _).1
            intro x hx hh
            have hlive := (hF.live x.1 x.2).1 hx
            have : x.1 ∈ setIds s.log := by
              unfold setIds
              rw [List.mem_filterMap]
              exact ⟨_, hlive.1, rfl⟩
            have := hF.le x.1 (by simp [this])
            omega
          rw [hb]
          exact ⟨[.filterSet (s.lastFilter + 1) f, .regOk rid], by simp [dupObs], by simp [quietObs]⟩
      · exact ⟨_, rfl, by simp [quietObs]⟩
    · split
      · exact ⟨_, rfl, by simp [quietObs]⟩
      · exact ⟨_, rfl, by simp [quietObs]⟩
  | advance dt => exact Or.inl ⟨[], by simp [step], by simp⟩
  | unwind => exact Or.inl ⟨[.cleared], rfl, by simp [quietObs]⟩

/-! ### Deliveries, for every history -/

structure InvD (E : Env I D) (s : St I D) : Prop where
  nodup : Obs.dupRecord ∉ s.log
  dl : ∀ pre post fid id i, s.log = pre ++ .interest fid id i :: post →
    ∃ f app t, made app id i t ∈ pre ∧ Live pre fid f ∧ Accepts f (E.name i) ∧ (app = true → f.loopback = true)

theorem invD_init : InvD E ({} : St I D) := by constructor <;> simp

theorem live_more {log δ : List (Obs I D)} (hδ : ∀ o ∈ δ, noFilt o = true) {fid : Nat} {f : Filter} (h : Live log fid f) :
    Live (log ++ δ) fid f := (live_noFilt hδ fid f).2 h

theorem made_noFilt (app : Bool) (id : Nat) (i : I) (t : Nat) : noFilt (made (D := D) app id i t) = true := by
  cases app <;> rfl

theorem invD_step {s s' : St I D} {c : Prop} (hF : InvF E s) (h : InvD E s) (hk : Kind E s s' c) :
    InvD E s' := by
  rcases hk with ⟨δ, hl, hδ⟩ | ⟨app, id, i, x, ds, hl, hxq, _, hds⟩
  · refine ⟨?_, ?_⟩
    · rw [hl, List.mem_append, not_or]
      exact ⟨h.nodup, fun hh => by have := hδ _ hh; simp [quietObs] at this⟩
    · intro pre post fid id i hab
      rw [hl] at hab
      rcases split_occ hab with ⟨k, hk⟩ | ⟨k, _, hk⟩
      · exact h.dl pre k fid id i hk
      · have := hδ (.interest fid id i) (by rw [hk]; simp); simp [quietObs] at this
  · have hdl : ∀ o ∈ ds, ∃ y ∈ s.filters, filterMatch E y.2 app i = true ∧ o = .interest y.1 id i := by
      rcases hds with ⟨rfl, _⟩ | ⟨_, boom, e, rfl, h1, h2, h3, _⟩
      · simp
      · intro o ho
        have := dispatch_log _ _ _ o ho
        rw [h1, h2, h3] at this
        exact this
    have hm : (made app id i s.now : Obs I D) ≠ .dupRecord ∧ ∀ a b c, (made app id i s.now : Obs I D) ≠ .interest a b c := by
      cases app <;> simp [made]
    refine ⟨?_, ?_⟩
    · rw [hl, List.mem_append, List.mem_cons, List.mem_append, not_or, not_or, not_or]
      refine ⟨h.nodup, fun hh => hm.1 hh.symm, fun hh => by have := (hxq _ hh).1; simp [quietObs] at this, ?_⟩
      intro hh
      obtain ⟨_, _, _, h'⟩ := hdl _ hh
      simp at h'
    · intro pre post fid id' i' hab
      rw [hl] at hab
      rcases split_occ hab with ⟨k, hk⟩ | ⟨k, hk1, hk⟩
      · exact h.dl pre k fid id' i' hk
      · -- the delivery is in ds
        have hmem : Obs.interest fid id' i' ∈ made app id i s.now :: (x ++ ds) := by rw [hk]; simp
        have hds' : Obs.interest fid id' i' ∈ ds := by
          rcases List.mem_cons.1 hmem with hh | hh
          · exact absurd hh.symm (hm.2 _ _ _)
          · rcases List.mem_append.1 hh with hh | hh
            · have := (hxq _ hh).1; simp [quietObs] at this
            · exact hh
        obtain ⟨y, hy, hmat, heq⟩ := hdl _ hds'
        simp only [Obs.interest.injEq] at heq
        obtain ⟨rfl, rfl, rfl⟩ := heq
        obtain ⟨ha, hlb⟩ := (filterMatch_iff y.2 app i').1 hmat
        -- the record precedes it
        have hkne : ∃ k', k = made app id' i' s.now :: k' := by
          cases k with
          | nil => simp at hk; exact absurd hk.1 (hm.2 _ _ _)
          | cons z k' => simp at hk; exact ⟨k', by rw [hk.1]⟩
        obtain ⟨k', hk'⟩ := hkne
        refine ⟨y.2, app, s.now, by rw [hk1, hk']; simp, ?_, ha, hlb⟩
        rw [hk1]
        have hlive := (hF.live y.1 y.2).1 hy
        refine ⟨by simp [hlive.1], ?_⟩
        intro hh
        rcases List.mem_append.1 hh with hh | hh
        · exact hlive.2 hh
        · have hin : Obs.filterUnset y.1 ∈ made app id' i' s.now :: (x ++ ds) := by rw [hk]; simp [hh]
          rcases List.mem_cons.1 hin with h' | h'
          · cases app <;> simp [made] at h'
          · rcases List.mem_append.1 h' with h' | h'
            · have := (hxq _ h').2; simp [noFilt] at this
            · obtain ⟨_, _, _, h''⟩ := hdl _ h'
              simp at h''

theorem inv_all {ops : List (Op I D)} {s : St I D} (hA : InvA E s) (hF : InvF E s) (hD : InvD E s) :
    InvD E (run E s ops) := by
  induction ops generalizing s with
  | nil => exact hD
  | cons op ops ih => exact ih (invA_step hA op) (invF_step hF op) (invD_step hF hD (kind_step hA hF op))

/-! ### Exact deliveries, when no callback throws -/

def deliveries (fid id : Nat) (log : List (Obs I D)) : Nat := log.countP (delivered fid id)

structure InvG (E : Env I D) (s : St I D) : Prop where
  ex : ∀ pre post app id i t, s.log = pre ++ made app id i t :: post →
    (app = true → E.sizeI i ≤ maxPacket) → ∀ fid,
      deliveries fid id s.log ≤ 1 ∧
      (0 < deliveries fid id s.log ↔ ∃ f, Live pre fid f ∧ Accepts f (E.name i) ∧ (app = true → f.loopback = true))
  fresh : ∀ id, id ∉ creIds s.log → ∀ fid, deliveries fid id s.log = 0
  big : ∀ id i t, Obs.expressed id i t ∈ s.log → E.sizeI i > maxPacket → ∀ fid, deliveries fid id s.log = 0

theorem invG_init : InvG E ({} : St I D) := by constructor <;> simp [deliveries]

theorem deliveries_append (fid id : Nat) (a b : List (Obs I D)) :
    deliveries fid id (a ++ b) = deliveries fid id a + deliveries fid id b := List.countP_append

theorem deliveries_quiet {l : List (Obs I D)} (h : ∀ o ∈ l, quietObs o = true) (fid id : Nat) : deliveries fid id l = 0 := by
  unfold deliveries
  rw [List.countP_eq_zero]
  intro o ho
  have := h o ho
  cases o <;> simp [quietObs] at this <;> simp [delivered]

theorem deliveries_dispatch (fs : List (Nat × Filter)) (hn : (fs.map Prod.fst).Nodup) (app : Bool) (i : I) (id fid id' : Nat) :
    deliveries (D := D) fid id' ((fs.filter (fun x => filterMatch E x.2 app i)).map (fun x => .interest x.1 id i)) ≤ 1 ∧
    (0 < deliveries (D := D) fid id' ((fs.filter (fun x => filterMatch E x.2 app i)).map (fun x => .interest x.1 id i)) ↔
      id' = id ∧ ∃ f, (fid, f) ∈ fs ∧ filterMatch E f app i = true) := by
  induction fs with
  | nil => simp [deliveries]
  | cons x fs ih =>
    obtain ⟨g, f⟩ := x
    rw [List.map_cons, List.nodup_cons] at hn
    obtain ⟨h1, h2⟩ := ih hn.2
    by_cases hm : filterMatch E f app i = true
    · simp only [List.filter_cons, hm, if_true, List.map_cons]
      have hc : ∀ l : List (Obs I D), deliveries fid id' (Obs.interest g id i :: l) =
          (if g = fid ∧ id = id' then 1 else 0) + deliveries fid id' l := by
        intro l
        unfold deliveries
        rw [List.countP_cons]
        simp only [delivered, Bool.and_eq_true, beq_iff_eq]
        omega
      rw [hc]
      by_cases hg : g = fid ∧ id = id'
      · obtain ⟨rfl, rfl⟩ := hg
        have hz : deliveries (D := D) g id ((fs.filter (fun x => filterMatch E x.2 app i)).map (fun x => .interest x.1 id i)) = 0 := by
          apply Nat.eq_zero_of_not_pos
          intro hp
          obtain ⟨_, f', hf', _⟩ := h2.1 hp
          exact hn.1 (List.mem_map.2 ⟨(g, f'), hf', rfl⟩)
        rw [hz]
        refine ⟨by simp, ?_⟩
        simp only [and_self, if_true]
        exact ⟨fun _ => ⟨trivial, f, by simp, hm⟩, fun _ => by omega⟩
      · rw [if_neg hg]
        refine ⟨by omega, ?_⟩
        rw [Nat.zero_add, h2]
        constructor
        · rintro ⟨a, f', hf', hm'⟩
          exact ⟨a, f', by simp [hf'], hm'⟩
        · rintro ⟨a, f', hf', hm'⟩
          rcases List.mem_cons.1 hf' with hh | hh
          · simp at hh; exact absurd ⟨hh.1.symm, a.symm⟩ hg
          · exact ⟨a, f', hh, hm'⟩
    · simp only [List.filter_cons, hm]
      refine ⟨h1, ?_⟩
      rw [show (if false = true then (g, f) :: fs.filter (fun x => filterMatch E x.2 app i) else fs.filter (fun x => filterMatch E x.2 app i)) = fs.filter (fun x => filterMatch E x.2 app i) from by simp]
      rw [h2]
      constructor
      · rintro ⟨a, f', hf', hm'⟩
        exact ⟨a, f', by simp [hf'], hm'⟩
      · rintro ⟨a, f', hf', hm'⟩
        rcases List.mem_cons.1 hf' with hh | hh
        · simp at hh; rw [hh.2] at hm'; exact absurd hm' hm
        · exact ⟨a, f', hh, hm'⟩

theorem made_creIds {app : Bool} {id : Nat} {i : I} {t : Nat} {log : List (Obs I D)} (h : made app id i t ∈ log) :
    id ∈ creIds log := by
  rw [mem_creIds_iff]
  exact ⟨_, h, by cases app <;> simp [made, creates]⟩

theorem invG_step {s s' : St I D} (hF : InvF E s) (hA' : InvA E s') (h : InvG E s) (hk : Kind E s s' True) : InvG E s' := by
  rcases hk with ⟨δ, hl, hδ⟩ | ⟨app, id, i, x, ds, hl, hxq, hfresh, hds⟩
  · have d0 := fun fid id => deliveries_quiet hδ fid id
    have c0 : creIds δ = [] := by
      unfold creIds
      rw [List.filterMap_eq_nil_iff]
      intro o ho
      have := hδ o ho
      cases o <;> simp [quietObs] at this <;> rfl
    refine ⟨?_, ?_, ?_⟩
    · intro pre post app id i t hab hsz fid
      rw [hl] at hab ⊢
      rw [deliveries_append, d0, Nat.add_zero]
      rcases split_occ hab with ⟨k, hk⟩ | ⟨k, _, hk⟩
      · exact h.ex pre k app id i t hk hsz fid
      · have := hδ (made app id i t) (by rw [hk]; simp)
        cases app <;> simp [made, quietObs] at this
    · intro id hid fid
      rw [hl, creIds_append, c0, List.append_nil] at hid
      rw [hl, deliveries_append, d0, h.fresh id hid fid]
    · intro id i t hm hsz fid
      rw [hl] at hm
      rw [hl, deliveries_append, d0, Nat.add_zero]
      rcases List.mem_append.1 hm with hm | hm
      · exact h.big id i t hm hsz fid
      · have := hδ _ hm; simp [quietObs] at this
  · have hx0 := fun fid id' => deliveries_quiet (l := x) (fun o ho => (hxq o ho).1) fid id'
    have hds' : (ds = [] ∧ app = true ∧ E.sizeI i > maxPacket) ∨
        ((app = true → E.sizeI i ≤ maxPacket) ∧
         ds = (s.filters.filter (fun x => filterMatch E x.2 app i)).map (fun x => .interest x.1 id i)) := by
      rcases hds with hh | ⟨hsz, boom, e, hd, h1, h2, h3, hb⟩
      · exact Or.inl hh
      · right
        refine ⟨hsz, ?_⟩
        rw [hd, dispatch_calm (hb trivial), h1, h2, h3]
    have hdel : ∀ fid id', deliveries fid id' (made app id i s.now :: (x ++ ds)) = deliveries fid id' ds := by
      intro fid id'
      rw [show made app id i s.now :: (x ++ ds) = [made app id i s.now] ++ (x ++ ds) from rfl, deliveries_append, deliveries_append, hx0]
      have : deliveries fid id' [(made app id i s.now : Obs I D)] = 0 := by cases app <;> simp [made, deliveries, delivered]
      omega
    have hother : ∀ fid id', id' ≠ id → deliveries fid id' ds = 0 := by
      intro fid id' hne
      rcases hds' with ⟨rfl, _⟩ | ⟨_, rfl⟩
      · rfl
      · apply Nat.eq_zero_of_not_pos
        intro hp
        exact hne ((deliveries_dispatch s.filters hF.tab app i id fid id').2.1 hp).1
    refine ⟨?_, ?_, ?_⟩
    · intro pre post app' id' i' t' hab hsz fid
      rw [hl] at hab ⊢
      rw [deliveries_append, hdel]
      rcases split_occ hab with ⟨k, hk⟩ | ⟨k, hk1, hk⟩
      · have hcr : id' ∈ creIds s.log := made_creIds (app := app') (i := i') (t := t') (by rw [hk]; exact List.mem_append_right _ (by simp))
        have hne : id' ≠ id := fun hh => hfresh (hh ▸ hcr)
        rw [hother fid id' hne, Nat.add_zero]
        exact h.ex pre k app' id' i' t' hk hsz fid
      · -- the record is the one made in this step
        have hmem : (made app' id' i' t' : Obs I D) ∈ made app id i s.now :: (x ++ ds) := by rw [hk]; exact List.mem_append_right _ (by simp)
        have hdsno : ∀ o ∈ ds, ∃ y, o = .interest y id i := by
          rcases hds' with ⟨rfl, _⟩ | ⟨_, rfl⟩
          · simp
          · intro o ho
            obtain ⟨y, _, rfl⟩ := List.mem_map.1 ho
            exact ⟨y.1, rfl⟩
        have hnot : ∀ a b c d, (made a b c d : Obs I D) ∉ x ++ ds := by
          intro a b c d hh
          rcases List.mem_append.1 hh with hh | hh
          · have := (hxq _ hh).1; cases a <;> simp [made, quietObs] at this
          · obtain ⟨y, hy⟩ := hdsno _ hh
            cases a <;> simp [made] at hy
        have hkn : k = [] := by
          cases k with
          | nil => rfl
          | cons z k' =>
            simp at hk
            exfalso
            apply hnot app' id' i' t'
            rw [hk.2]; simp
        subst hkn
        simp only [List.nil_append, List.cons.injEq, List.append_nil] at hk hk1
        have heq : app = app' ∧ id = id' ∧ i = i' := by
          have := hk.1
          cases app <;> cases app' <;> simp [made] at this <;> simp [this]
        obtain ⟨rfl, rfl, rfl⟩ := heq
        rw [h.fresh id hfresh, Nat.zero_add, hk1]
        rcases hds' with ⟨_, ha, hb⟩ | ⟨_, rfl⟩
        · have := hsz ha; omega
        · obtain ⟨h1, h2⟩ := deliveries_dispatch (D := D) (E := E) s.filters hF.tab app i id fid id
          refine ⟨h1, ?_⟩
          rw [h2]
          constructor
          · rintro ⟨_, f, hf, hm⟩
            exact ⟨f, (hF.live fid f).1 hf, ((filterMatch_iff f app i).1 hm).1, ((filterMatch_iff f app i).1 hm).2⟩
          · rintro ⟨f, hf, ha, hb⟩
            exact ⟨rfl, f, (hF.live fid f).2 hf, (filterMatch_iff f app i).2 ⟨ha, hb⟩⟩
    · intro id' hid fid
      rw [hl, creIds_append, List.mem_append, not_or] at hid
      have hne : id' ≠ id := by
        intro hh
        exact hid.2 (made_creIds (app := app) (i := i) (t := s.now) (by rw [hh]; simp))
      rw [hl, deliveries_append, hdel, hother fid id' hne, h.fresh id' hid.1 fid]
    · intro id' i' t' hm hsz fid
      rw [hl] at hm
      rw [hl, deliveries_append, hdel]
      rcases List.mem_append.1 hm with hm | hm
      · have hcr : id' ∈ creIds s.log := made_creIds (app := true) (i := i') (t := t') hm
        rw [hother fid id' (fun hh => hfresh (hh ▸ hcr)), h.big id' i' t' hm hsz fid]
      · rcases List.mem_cons.1 hm with hm | hm
        · have heq : app = true ∧ id = id' ∧ i = i' := by
            cases app <;> simp [made] at hm
            exact ⟨rfl, hm.1.symm, hm.2.1.symm⟩
          obtain ⟨rfl, rfl, rfl⟩ := heq
          rw [h.fresh id hfresh]
          rcases hds' with ⟨rfl, _⟩ | ⟨hc, _⟩
          · rfl
          · have := hc rfl; omega
        · exfalso
          rcases List.mem_append.1 hm with hm | hm
          · have := (hxq _ hm).1; simp [quietObs] at this
          · rcases hds' with ⟨rfl, _⟩ | ⟨_, rfl⟩
            · simp at hm
            · obtain ⟨y, _, hy⟩ := List.mem_map.1 hm
              simp at hy

theorem invG_run {ops : List (Op I D)} {s : St I D} (hA : InvA E s) (hF : InvF E s) (h : InvG E s)
    (hc : ∀ op ∈ ops, Calm op) : InvG E (run E s ops) := by
  induction ops generalizing s with
  | nil => exact h
  | cons op ops ih =>
    have hk := kind_step hA hF op
    have hc0 := hc op (by simp)
    have hk' : Kind E s (step E s op) True := by
      have : Calm op = True := by simp [hc0]
      rw [this] at hk; exact hk
    exact ih (invA_step hA op) (invF_step hF op) (invG_step hF (invA_step hA op) h hk') (fun o ho => hc o (by simp [ho]))

end Ndn.Face
