import Verif.Anchors.Lemmas
/-
Every call preserves the correspondence between the container and the views of its groups.
-/
namespace Ndn.Anchors
open Ndn.Name Ndn.Cert

theorem append_group {gs : List Group} {g : Group} (id : Bytes) (l l' : List Entry) (h : St.group ⟨gs, l⟩ g.id = none) :
    St.group ⟨gs ++ [g], l'⟩ id = if id = g.id then some g else St.group ⟨gs, l⟩ id := by
  unfold St.group at *
  simp only at *
  rw [List.find?_append]
  by_cases hi : id = g.id
  · rw [if_pos hi, hi, h]; simp
  · rw [if_neg hi]
    have : List.find? (fun x : Group => decide (x.id = id)) [g] = none := by simp; exact Ne.symm hi
    rw [this]
    cases List.find? (fun x : Group => decide (x.id = id)) gs <;> rfl

theorem append_ids {gs : List Group} {g : Group} {l : List Entry} (h : (gs.map (·.id)).Nodup) (hn : St.group ⟨gs, l⟩ g.id = none) : ((gs ++ [g]).map (·.id)).Nodup := by
  rw [List.map_append, List.nodup_append]
  refine ⟨h, by simp, ?_⟩
  intro a ha b hb
  simp at hb
  subst hb
  obtain ⟨x, hx, rfl⟩ := List.mem_map.1 ha
  exact group_none.1 hn x hx

theorem refreshAll_out (now : Int) (fs : Files) (ids : List Bytes) : ∀ s : St, (s.refreshAll now fs ids).1 ≠ .refused := by
  induction ids with
  | nil => intro s; simp [St.refreshAll]
  | cons id ids ih =>
    intro s
    unfold St.refreshAll
    simp only
    split
    · rename_i h
      rcases h with h | h <;> rw [h] <;> simp
    · exact ih _

/-- A certificate a call gives to the container. -/
def GivenBy (op : Op) (c : Crt) : Prop := (∃ id, op = .insert id c) ∨
    ∃ now fs path isDir, ((∃ id period, op = .insertPath now fs id path period isDir) ∨ (∃ id, op = .refresh now fs id) ∨ ∃ order, op = .find now fs order) ∧
      c ∈ (fs path isDir).certs

/-- The statement about one call. -/
def Good (s : St) (V : Bytes → Spec.View) (op : Op) (s' : St) : Prop :=
  Sim s' (fun i => Spec.next i (V i) op) ∧
  (∀ e ∈ s'.anchors, e ∈ s.anchors ∨ ∃ c, GivenBy op c ∧ e = ⟨c, 0⟩) ∧
  (∀ n, ((∃ i, (V i).names n) → Has s.anchors n) → (∀ i, op ≠ .remove i n) → (∀ i, (V i).names n → (Spec.next i (V i) op).names n) →
    (∃ i, (Spec.next i (V i) op).names n) → Has s'.anchors n)

theorem good_same {s : St} {V : Bytes → Spec.View} {op : Op} (hs : Sim s V) (h : ∀ i, Spec.next i (V i) op = V i) : Good s V op s := by
  have hV : (fun i => Spec.next i (V i) op) = V := funext h
  refine ⟨by rw [hV]; exact hs, fun e he => .inl he, fun n h1 _ _ h3 => h1 ?_⟩
  obtain ⟨i, hi⟩ := h3
  exact ⟨i, h i ▸ hi⟩

theorem good_insert {s s' : St} {V : Bytes → Spec.View} (hs : Sim s V) {id : Bytes} {c : Crt} {o : Out} (h : s.insert id c = (o, s')) : Good s V (.insert id c) s' := by
  have hother : ∀ i, i ≠ id → Spec.next i (V i) (.insert id c) = V i := by
    intro i hi
    have hi' : id ≠ i := Ne.symm hi
    cases V i <;> simp [Spec.next, hi']
  unfold St.insert at h
  have hrep := hs.rep id
  cases hg : s.group id with
  | none =>
    rw [hg] at h hrep
    simp only [Prod.mk.injEq] at h
    obtain ⟨_, rfl⟩ := h
    have hv := hrep.none
    refine ⟨⟨⟨append_ids (l := s.anchors) hs.inv.ids hg, ?_, insertByName_sorted hs.inv.sorted, ?_⟩, ?_⟩, ?_, ?_⟩
    · intro g hgm
      rcases List.mem_append.1 hgm with h | h
      · exact hs.inv.names g h
      · simp at h; subst h; simp
    · intro n hn
      rcases (has_add c _ n).1 hn with h | h
      · obtain ⟨g, h1, h2⟩ := hs.inv.listed n h
        exact ⟨g, List.mem_append.2 (.inl h1), h2⟩
      · exact ⟨⟨id, .static, [c.name]⟩, by simp, by simp [h]⟩
    · intro i
      rw [append_group i s.anchors _ hg]
      simp only
      split
      · rename_i e; subst e
        rw [hv]
        simp only [Spec.next, if_true]
        exact ⟨rfl, fun n => by simp⟩
      · rename_i e; rw [hother i e]; exact hs.rep i
    · intro e he
      rcases mem_insertByName he with h | h
      · exact .inr ⟨c, .inl ⟨id, rfl⟩, h⟩
      · exact .inl h
    · intro n h1 _ _ h3
      obtain ⟨i, hi⟩ := h3
      rw [has_add]
      by_cases e : i = id
      · subst e
        rw [hv] at hi
        simp only [Spec.next, if_true, Spec.View.names] at hi
        exact .inr hi
      · rw [hother i e] at hi
        exact .inl (h1 ⟨i, hi⟩)
  | some g =>
    rw [hg] at h hrep
    obtain ⟨hgm, hgi⟩ := group_mem hg
    cases hv : V id with
    | absent => rw [hv] at hrep; exact absurd hrep (by simp [Rep])
    | dynamic path isDir period loaded names =>
      rw [hv] at hrep
      simp only [hrep.1, Prod.mk.injEq] at h
      obtain ⟨_, rfl⟩ := h
      refine good_same hs (fun i => ?_)
      by_cases e : i = id
      · subst e; rw [hv]; rfl
      · exact hother i e
    | static names =>
      rw [hv] at hrep
      simp only [hrep.1] at h
      split at h
      · rename_i hc
        simp only [Prod.mk.injEq] at h
        obtain ⟨_, rfl⟩ := h
        refine ⟨⟨hs.inv, fun i => ?_⟩, fun e he => .inl he, fun n h1 _ h2 h3 => h1 ?_⟩
        · by_cases e : i = id
          · subst e
            rw [hg, hv]
            simp only [Spec.next, if_true]
            refine ⟨hrep.1, fun n => ?_⟩
            rw [hrep.2 n]
            exact ⟨.inl, fun h => h.elim _root_.id (fun e => (hrep.2 n).1 (e ▸ hc))⟩
          · rw [hother i e]; exact hs.rep i
        · obtain ⟨i, hi⟩ := h3
          by_cases e : i = id
          · subst e
            refine ⟨i, ?_⟩
            rw [hv] at hi ⊢
            simp only [Spec.next, if_true, Spec.View.names] at hi
            exact hi.elim _root_.id (fun e => (hrep.2 n).1 (e ▸ hc))
          · exact ⟨i, hother i e ▸ hi⟩
      · rename_i hc
        simp only [Prod.mk.injEq] at h
        obtain ⟨_, rfl⟩ := h
        have hex : ∃ x ∈ s.groups, x.id = id := ⟨g, hgm, hgi⟩
        refine ⟨⟨⟨?_, ?_, insertByName_sorted hs.inv.sorted, ?_⟩, ?_⟩, ?_, ?_⟩
        · show ((s.groups.map fun h => if h.id = id then _ else h).map (·.id)).Nodup
          rw [set_ids (g := ⟨id, .static, c.name :: g.names⟩)]; exact hs.inv.ids
        · intro x hx
          rcases set_mem (g := ⟨id, .static, c.name :: g.names⟩) hx with rfl | ⟨hx, _⟩
          · exact List.nodup_cons.2 ⟨hc, hs.inv.names g hgm⟩
          · exact hs.inv.names x hx
        · intro n hn
          rcases (has_add c _ n).1 hn with h | h
          · obtain ⟨x, h1, h2⟩ := hs.inv.listed n h
            by_cases e : x.id = id
            · have : x = g := by
                have a := group_some hs.inv.ids h1
                rw [e, hg] at a
                exact (Option.some.inj a).symm
              subst this
              exact ⟨_, mem_set_self (g := ⟨id, .static, c.name :: x.names⟩) hex, List.mem_cons_of_mem _ h2⟩
            · exact ⟨x, mem_set (g := ⟨id, .static, c.name :: g.names⟩) h1 e, h2⟩
          · exact ⟨_, mem_set_self (g := ⟨id, .static, c.name :: g.names⟩) hex, by simp [h]⟩
        · intro i
          show Rep (St.group ⟨s.groups.map fun h => if h.id = id then ⟨id, .static, c.name :: g.names⟩ else h, add c s.anchors⟩ i) _
          rw [set_group (g := ⟨id, .static, c.name :: g.names⟩) i _ hex]
          simp only
          split
          · rename_i e; subst e
            rw [hv]
            simp only [Spec.next, if_true]
            refine ⟨rfl, fun n => ?_⟩
            rw [List.mem_cons, hrep.2 n]
            exact ⟨fun h => h.symm, fun h => h.symm⟩
          · rename_i e; rw [hother i e]; exact hs.rep i
        · intro e he
          rcases mem_insertByName he with h | h
          · exact .inr ⟨c, .inl ⟨id, rfl⟩, h⟩
          · exact .inl h
        · intro n h1 _ h2 h3
          obtain ⟨i, hi⟩ := h3
          rw [has_add]
          by_cases e : i = id
          · subst e
            rw [hv] at hi
            simp only [Spec.next, if_true, Spec.View.names] at hi
            rcases hi with hi | hi
            · exact .inl (h1 ⟨i, by rw [hv]; exact hi⟩)
            · exact .inr hi
          · rw [hother i e] at hi
            exact .inl (h1 ⟨i, hi⟩)

theorem good_remove {s s' : St} {V : Bytes → Spec.View} (hs : Sim s V) {id : Bytes} {m : List Comp} {o : Out} (h : s.removeCert id m = (o, s')) : Good s V (.remove id m) s' := by
  have hother : ∀ i, i ≠ id → Spec.next i (V i) (.remove id m) = V i := by
    intro i hi
    have hi' : id ≠ i := Ne.symm hi
    cases V i <;> simp [Spec.next, hi']
  unfold St.removeCert at h
  have hrep := hs.rep id
  cases hg : s.group id with
  | none =>
    rw [hg] at h hrep
    simp only [Prod.mk.injEq] at h
    obtain ⟨_, rfl⟩ := h
    refine good_same hs (fun i => ?_)
    by_cases e : i = id
    · subst e; rw [hrep.none]; rfl
    · exact hother i e
  | some g =>
    rw [hg] at h hrep
    obtain ⟨hgm, hgi⟩ := group_mem hg
    cases hv : V id with
    | absent => rw [hv] at hrep; exact absurd hrep (by simp [Rep])
    | dynamic path isDir period loaded names =>
      rw [hv] at hrep
      simp only [hrep.1, Prod.mk.injEq] at h
      obtain ⟨_, rfl⟩ := h
      refine good_same hs (fun i => ?_)
      by_cases e : i = id
      · subst e; rw [hv]; rfl
      · exact hother i e
    | static names =>
      rw [hv] at hrep
      simp only [hrep.1, Prod.mk.injEq] at h
      obtain ⟨_, rfl⟩ := h
      have hex : ∃ x ∈ s.groups, x.id = id := ⟨g, hgm, hgi⟩
      refine ⟨⟨⟨?_, ?_, remove_sorted hs.inv.sorted, ?_⟩, ?_⟩, fun e he => .inl (remove_mem he), ?_⟩
      · show ((s.groups.map fun h => if h.id = id then _ else h).map (·.id)).Nodup
        rw [set_ids (g := ⟨id, .static, g.names.filter (· ≠ m)⟩)]; exact hs.inv.ids
      · intro x hx
        rcases set_mem (g := ⟨id, .static, g.names.filter (· ≠ m)⟩) hx with rfl | ⟨hx, _⟩
        · exact List.Pairwise.filter _ (hs.inv.names g hgm)
        · exact hs.inv.names x hx
      · intro n hn
        obtain ⟨h, hne⟩ := (has_remove m _ n).1 hn
        obtain ⟨x, h1, h2⟩ := hs.inv.listed n h
        by_cases e : x.id = id
        · have : x = g := by
            have a := group_some hs.inv.ids h1
            rw [e, hg] at a
            exact (Option.some.inj a).symm
          subst this
          exact ⟨_, mem_set_self (g := ⟨id, .static, x.names.filter (· ≠ m)⟩) hex, List.mem_filter.2 ⟨h2, by simpa using hne⟩⟩
        · exact ⟨x, mem_set (g := ⟨id, .static, g.names.filter (· ≠ m)⟩) h1 e, h2⟩
      · intro i
        show Rep (St.group ⟨s.groups.map fun h => if h.id = id then ⟨id, .static, g.names.filter (· ≠ m)⟩ else h, remove m s.anchors⟩ i) _
        rw [set_group (g := ⟨id, .static, g.names.filter (· ≠ m)⟩) i _ hex]
        simp only
        split
        · rename_i e; subst e
          rw [hv]
          simp only [Spec.next, if_true]
          refine ⟨rfl, fun n => ?_⟩
          rw [List.mem_filter, hrep.2 n]
          simp
        · rename_i e; rw [hother i e]; exact hs.rep i
      · intro n h1 h2 _ h3
        obtain ⟨i, hi⟩ := h3
        have hne : n ≠ m := fun e => h2 id (by rw [e])
        rw [has_remove]
        refine ⟨h1 ⟨i, ?_⟩, hne⟩
        by_cases e : i = id
        · subst e
          rw [hv] at hi ⊢
          simp only [Spec.next, if_true, Spec.View.names] at hi
          exact hi.1
        · exact hother i e ▸ hi

theorem good_insertPath {s s' : St} {V : Bytes → Spec.View} (hs : Sim s V) {now : Int} (hnow : 0 ≤ now) {fs : Files} {id path : Bytes} {period : Int} {isDir : Bool} {o : Out}
    (h : s.insertPath now fs id path period isDir = (o, s')) (ho : o = .ok ∨ o = .refused) : Good s V (.insertPath now fs id path period isDir) s' := by
  have hother : ∀ i, i ≠ id → Spec.next i (V i) (.insertPath now fs id path period isDir) = V i := by
    intro i hi
    have hi' : id ≠ i := Ne.symm hi
    cases V i <;> simp [Spec.next, hi']
  have hrep := hs.rep id
  unfold St.insertPath at h
  split at h
  · rename_i hex
    simp only [Prod.mk.injEq] at h
    obtain ⟨_, rfl⟩ := h
    refine good_same hs (fun i => ?_)
    by_cases e : i = id
    · subst e
      cases hg : s.group i with
      | none => rw [hg] at hex; simp at hex
      | some g =>
        rw [hg] at hrep
        cases hv : V i with
        | absent => rw [hv] at hrep; exact absurd hrep (by simp [Rep])
        | _ => rfl
    · exact hother i e
  · rename_i hex
    have hg : s.group id = none := by
      cases hg : s.group id with
      | none => rfl
      | some g => rw [hg] at hex; simp at hex
    rw [hg] at hrep
    have hv := hrep.none
    split at h
    · rename_i hp
      simp only [Prod.mk.injEq] at h
      obtain ⟨_, rfl⟩ := h
      refine good_same hs (fun i => ?_)
      by_cases e : i = id
      · subst e
        rw [hv]
        simp only [Spec.next]
        rw [if_neg (by omega)]
      · exact hother i e
    · rename_i hp
      simp only at h
      generalize hr : Group.refresh now fs ⟨id, .dynamic path isDir period 0, []⟩ s.anchors = r at h
      obtain ⟨o', g', l'⟩ := r
      have hok : o' = .ok := by
        cases o' with
        | ok => rfl
        | refused =>
          unfold Group.refresh at hr
          simp only at hr
          split at hr
          · simp at hr
          · split at hr
            · simp at hr
            · split at hr <;> simp at hr
        | fails => simp only [Prod.mk.injEq] at h; rcases ho with ho | ho <;> rw [ho] at h <;> simp at h
        | ub => simp only [Prod.mk.injEq] at h; rcases ho with ho | ho <;> rw [ho] at h <;> simp at h
      subst hok
      simp only [Prod.mk.injEq] at h
      obtain ⟨_, rfl⟩ := h
      obtain ⟨hR, _, h2⟩ := refresh_spec hr
      obtain ⟨hk, hn⟩ := (h2 path isDir period 0 rfl).2 (by omega)
      have hid : g'.id = id := hR.id
      have hv' : Spec.next id (V id) (.insertPath now fs id path period isDir) = .dynamic path isDir period now (Spec.has fs path isDir) := by
        rw [hv]
        simp only [Spec.next]
        rw [if_pos ⟨trivial, by omega⟩]
      refine ⟨⟨⟨append_ids (l := s.anchors) hs.inv.ids (by rw [hid]; exact hg), ?_, hR.sorted hs.inv.sorted, ?_⟩, ?_⟩, ?_, ?_⟩
      · intro g hgm
        rcases List.mem_append.1 hgm with h | h
        · exact hs.inv.names g h
        · simp at h; subst h; exact hR.nodup (by simp)
      · intro n hn'
        obtain ⟨h1, h2⟩ := (hR.has n).1 hn'
        rcases h1 with h1 | h1
        · obtain ⟨g, h1, h2⟩ := hs.inv.listed n h1
          exact ⟨g, List.mem_append.2 (.inl h1), h2⟩
        · exact ⟨g', by simp, h1.1⟩
      · intro i
        rw [append_group i s.anchors _ (by rw [hid]; exact hg), hid]
        split
        · rename_i e; subst e
          rw [hv']
          exact ⟨hk, by omega, hn⟩
        · rename_i e; rw [hother i e]; exact hs.rep i
      · intro e he
        unfold Group.refresh at hr
        simp only at hr
        rw [if_neg (by omega)] at hr
        split at hr
        · simp at hr
        · split at hr
          · simp at hr
          · simp only [Prod.mk.injEq, true_and] at hr
            obtain ⟨_, _, _, a4, _⟩ := loadCerts_spec (fs path isDir).certs [] [] s.anchors (fun n h => h)
            obtain ⟨_, _, b3, _⟩ := dropOld_spec (loadCerts (fs path isDir).certs [] [] s.anchors).2.1 (loadCerts (fs path isDir).certs [] [] s.anchors).1
              (loadCerts (fs path isDir).certs [] [] s.anchors).2.2
            simp only [← hr.2] at he
            rcases a4 e (b3 e he) with h | ⟨c, hc, h⟩
            · exact .inl h
            · exact .inr ⟨c, .inr ⟨now, fs, path, isDir, .inl ⟨id, period, rfl⟩, hc⟩, h⟩
      · intro n h1 _ _ h3
        obtain ⟨i, hi⟩ := h3
        refine (hR.has n).2 ⟨?_, by simp⟩
        by_cases e : i = id
        · subst e
          rw [hv'] at hi
          exact .inr ⟨(hn n).2 hi, by simp⟩
        · rw [hother i e] at hi
          exact .inl (h1 ⟨i, hi⟩)

theorem step_good {s s' : St} {V : Bytes → Spec.View} (hs : Sim s V) {op : Op} (ht : ∀ t, Spec.time op = some t → 0 ≤ t) {o : Out} (h : step s op = (o, s'))
    (ho : o = .ok ∨ o = .refused) : Good s V op s' := by
  cases op with
  | insert id c => exact good_insert hs h
  | remove id m => exact good_remove hs h
  | insertPath now fs id path period isDir => exact good_insertPath hs (ht now rfl) h ho
  | refresh now fs id =>
    obtain ⟨a1, a2, a3⟩ := refreshGroup_spec hs h ho
    have hV : (fun i => Spec.next i (V i) (.refresh now fs id)) = (fun i => if i = id then Spec.reread now fs (V i) else V i) := by
      funext i
      cases V i <;> simp [Spec.next, eq_comm]
    have hV' : ∀ i, Spec.next i (V i) (.refresh now fs id) = if i = id then Spec.reread now fs (V i) else V i := congrFun hV
    refine ⟨by rw [hV]; exact a1, fun e he => ?_, fun n h1 _ h2 h3 => a3 n h1 (fun hx => ?_) ?_⟩
    · rcases a2 e he with h | ⟨path, isDir, c, hc, h⟩
      · exact .inl h
      · exact .inr ⟨c, .inr ⟨now, fs, path, isDir, .inr (.inl ⟨id, rfl⟩), hc⟩, h⟩
    · have := h2 id hx
      rw [hV', if_pos rfl] at this
      exact this
    · obtain ⟨i, hi⟩ := h3
      exact ⟨i, hV' i ▸ hi⟩
  | find now fs order =>
    have hok : o = .ok := by
      rcases ho with ho | ho
      · exact ho
      · exfalso
        exact refreshAll_out now fs _ s (by rw [show s.refreshAll now fs (order ++ s.groups.map (·.id)) = (o, s') from h]; exact ho)
    subst hok
    obtain ⟨a1, a2, a3⟩ := refreshAll_spec now fs _ _ _ _ hs h
    have hV' : ∀ i, (if i ∈ order ++ s.groups.map (·.id) then Spec.reread now fs (V i) else V i) = Spec.next i (V i) (.find now fs order) := by
      intro i
      have e : Spec.next i (V i) (.find now fs order) = Spec.reread now fs (V i) := by cases V i <;> rfl
      rw [e]
      split
      · rfl
      · rename_i hi
        have hg : s.group i = none := by
          rw [group_none]
          intro g hg e
          exact hi (List.mem_append.2 (.inr (List.mem_map.2 ⟨g, hg, e⟩)))
        have := hs.rep i
        rw [hg] at this
        rw [this.none]
        rfl
    have hV : (fun i => if i ∈ order ++ s.groups.map (·.id) then Spec.reread now fs (V i) else V i) = (fun i => Spec.next i (V i) (.find now fs order)) := funext hV'
    refine ⟨by rw [← hV]; exact a1, fun e he => ?_, fun n h1 _ h2 h3 => a3 n h1 (fun i hx => ?_) ?_⟩
    · rcases a2 e he with h | ⟨path, isDir, c, hc, h⟩
      · exact .inl h
      · exact .inr ⟨c, .inr ⟨now, fs, path, isDir, .inr (.inr ⟨order, rfl⟩), hc⟩, h⟩
    · have := h2 i hx
      have e : Spec.next i (V i) (.find now fs order) = Spec.reread now fs (V i) := by cases V i <;> rfl
      rw [e] at this
      exact this
    · obtain ⟨i, hi⟩ := h3
      exact ⟨i, by rw [hV']; exact hi⟩
  | clear =>
    simp only [step, Prod.mk.injEq] at h
    obtain ⟨_, rfl⟩ := h
    have e : ∀ i, Spec.next i (V i) .clear = .absent := by intro i; cases V i <;> rfl
    refine ⟨⟨⟨by simp [St.init], by simp [St.init], by simp [St.init, CSorted], ?_⟩, fun i => ?_⟩, ?_, ?_⟩
    · rintro n ⟨x, hx, _⟩; simp [St.init] at hx
    · rw [e]; trivial
    · intro x hx; simp [St.init] at hx
    · rintro n _ _ _ ⟨i, hi⟩
      rw [e] at hi
      exact hi.elim

/-! ### Histories -/

theorem run_append (s : St) (a b : List Op) : run s (a ++ b) = ((run s a).1 ++ (run (run s a).2 b).1, (run (run s a).2 b).2) := by
  induction a generalizing s with
  | nil => simp [run]
  | cons o a ih => simp only [List.cons_append, run, ih, List.cons_append]

theorem view_snoc (id : Bytes) (ops : List Op) (op : Op) : Spec.view id (ops ++ [op]) = Spec.next id (Spec.view id ops) op := by
  simp [Spec.view, List.foldl_append]

theorem init_sim : Sim St.init (fun i => Spec.view i []) := by
  refine ⟨⟨by simp [St.init], by simp [St.init], by simp [St.init, CSorted], ?_⟩, fun i => trivial⟩
  rintro n ⟨x, hx, _⟩; simp [St.init] at hx

theorem run_sim (ops : List Op) : Spec.Clocked ops → Spec.Regular (run St.init ops).1 →
    Sim (run St.init ops).2 (fun i => Spec.view i ops) ∧
    (∀ e ∈ (run St.init ops).2.anchors, ∃ c, Spec.Given ops c ∧ e = ⟨c, 0⟩) ∧
    (∀ n, Spec.Exclusive ops n → (∃ i, Spec.Lists ops i n) → Has (run St.init ops).2.anchors n) := by
  refine Replay.snocInd ops (motive := fun ops => Spec.Clocked ops → Spec.Regular (run St.init ops).1 →
    Sim (run St.init ops).2 (fun i => Spec.view i ops) ∧
    (∀ e ∈ (run St.init ops).2.anchors, ∃ c, Spec.Given ops c ∧ e = ⟨c, 0⟩) ∧
    (∀ n, Spec.Exclusive ops n → (∃ i, Spec.Lists ops i n) → Has (run St.init ops).2.anchors n)) ?_ ?_
  · intro _ _
    refine ⟨init_sim, by simp [run, St.init], ?_⟩
    rintro n _ ⟨i, hi⟩
    exact hi.elim
  · intro ops op ih hc hr
    rw [run_append] at hr ⊢
    obtain ⟨i1, i2, i3⟩ := ih (fun x hx => hc x (List.mem_append.2 (.inl hx))) (fun o ho => hr o (List.mem_append.2 (.inl ho)))
    have ho := hr (step (run St.init ops).2 op).1 (List.mem_append.2 (.inr (by simp [run])))
    obtain ⟨g1, g2, g3⟩ := step_good i1 (hc op (by simp)) (s' := (step (run St.init ops).2 op).2) rfl ho
    simp only [run]
    refine ⟨?_, ?_, ?_⟩
    · simp only [view_snoc]; exact g1
    · intro e he
      rcases g2 e he with h | ⟨c, h, h'⟩
      · obtain ⟨c, ⟨x, hx, h1⟩, h2⟩ := i2 e h
        exact ⟨c, ⟨x, List.mem_append.2 (.inl hx), h1⟩, h2⟩
      · exact ⟨c, ⟨op, by simp, h⟩, h'⟩
    · intro n hx hl
      have hxo : Spec.Exclusive ops n := by
        intro a o b e hw
        exact hx a o (b ++ [op]) (by rw [e]; simp) hw
      by_cases hw : Spec.Withdraws ops op n
      · obtain ⟨i, hi⟩ := hl
        exact absurd hi (hx ops op [] rfl hw i)
      · refine g3 n (i3 n hxo) (fun i e => hw (.inl ⟨i, e⟩)) (fun i hi => ?_) ?_
        · exact Classical.byContradiction fun hne => hw (.inr ⟨i, hi, fun h => hne (by rw [Spec.Lists, view_snoc] at h; exact h)⟩)
        · obtain ⟨i, hi⟩ := hl
          exact ⟨i, by rw [Spec.Lists, view_snoc] at hi; exact hi⟩

end Ndn.Anchors
