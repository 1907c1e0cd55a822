import Verif.Anchors.Spec
import Verif.Cert.CacheLemmas
import Verif.Replay.Lemmas
/-
Lemmas for C61.
-/
namespace Ndn.Anchors
open Ndn.Name Ndn.Cert

/-- A certificate of this name is in the container. -/
def Has (l : List Entry) (n : List Comp) : Prop := ∃ e ∈ l, e.cert.name = n

theorem has_add (c : Crt) (l : List Entry) (n : List Comp) : Has (add c l) n ↔ Has l n ∨ n = c.name := by
  constructor
  · rintro ⟨e, he, h⟩
    rcases mem_insertByName he with rfl | he
    · exact .inr h.symm
    · exact .inl ⟨e, he, h⟩
  · rintro (⟨e, he, h⟩ | h)
    · exact ⟨e, mem_insertByName_old he, h⟩
    · by_cases hx : ∃ x ∈ l, x.cert.name = c.name
      · obtain ⟨x, h1, h2⟩ := hx
        exact ⟨x, mem_insertByName_old h1, by rw [h2, h]⟩
      · exact ⟨⟨c, 0⟩, mem_insertByName_new (fun x h1 h2 => hx ⟨x, h1, h2⟩), h.symm⟩

theorem has_remove (m : List Comp) (l : List Entry) (n : List Comp) : Has (remove m l) n ↔ Has l n ∧ n ≠ m := by
  constructor
  · rintro ⟨e, he, h⟩
    simp only [remove, List.mem_filter, decide_eq_true_eq] at he
    exact ⟨⟨e, he.1, h⟩, fun e' => he.2 (by rw [h, e'])⟩
  · rintro ⟨⟨e, he, h⟩, hn⟩
    exact ⟨e, by simp only [remove, List.mem_filter, decide_eq_true_eq]; exact ⟨he, by rw [h]; exact hn⟩, h⟩

theorem remove_mem {m : List Comp} {l : List Entry} {e : Entry} (h : e ∈ remove m l) : e ∈ l := (List.mem_filter.1 h).1

theorem remove_sorted {m : List Comp} {l : List Entry} (h : CSorted l) : CSorted (remove m l) := List.Pairwise.filter _ h

/-- A name of one of these certificates. -/
def Named (cs : List Crt) (n : List Comp) : Prop := ∃ c ∈ cs, c.name = n

theorem loadCerts_spec (cs : List Crt) : ∀ (names old : List (List Comp)) (l : List Entry), (∀ n ∈ old, n ∈ names) →
    (∀ n, n ∈ (loadCerts cs names old l).1 ↔ n ∈ names ∨ Named cs n) ∧
    (∀ n, n ∈ (loadCerts cs names old l).2.1 ↔ n ∈ old ∧ ¬ Named cs n) ∧
    (∀ n, Has (loadCerts cs names old l).2.2 n ↔ Has l n ∨ (Named cs n ∧ n ∉ names)) ∧
    (∀ e ∈ (loadCerts cs names old l).2.2, e ∈ l ∨ ∃ c ∈ cs, e = ⟨c, 0⟩) ∧
    (CSorted l → CSorted (loadCerts cs names old l).2.2) ∧
    (names.Nodup → (loadCerts cs names old l).1.Nodup) := by
  induction cs with
  | nil =>
    intro names old l h
    simp only [loadCerts]
    refine ⟨fun n => ?_, fun n => ?_, fun n => ?_, fun e he => .inl he, id, id⟩ <;> simp [Named]
  | cons c cs ih =>
    intro names old l h
    have hn : ∀ n, Named (c :: cs) n ↔ n = c.name ∨ Named cs n := by
      intro n
      unfold Named
      constructor
      · rintro ⟨d, hd, e⟩
        rcases List.mem_cons.1 hd with rfl | hd
        · exact .inl e.symm
        · exact .inr ⟨d, hd, e⟩
      · rintro (rfl | ⟨d, hd, e⟩)
        · exact ⟨c, by simp, rfl⟩
        · exact ⟨d, by simp [hd], e⟩
    unfold loadCerts
    split
    · rename_i hc
      obtain ⟨h1, h2, h3, h4, h5, h6⟩ := ih names (old.filter (· ≠ c.name)) l (fun n hn => h n (List.mem_filter.1 hn).1)
      refine ⟨fun n => ?_, fun n => ?_, fun n => ?_, fun e he => ?_, h5, h6⟩
      · rw [h1, hn]
        constructor
        · rintro (h | h); exact .inl h; exact .inr (.inr h)
        · rintro (h | rfl | h); exact .inl h; exact .inl hc; exact .inr h
      · rw [h2, hn, List.mem_filter]
        simp only [ne_eq, decide_eq_true_eq, not_or]
        exact ⟨fun ⟨⟨a, b⟩, c⟩ => ⟨a, b, c⟩, fun ⟨a, b, c⟩ => ⟨⟨a, b⟩, c⟩⟩
      · rw [h3, hn]
        constructor
        · rintro (h | ⟨h, h'⟩); exact .inl h; exact .inr ⟨.inr h, h'⟩
        · rintro (h | ⟨rfl | h, h'⟩); exact .inl h; exact absurd hc h'; exact .inr ⟨h, h'⟩
      · rcases h4 e he with h | ⟨d, hd, h⟩
        · exact .inl h
        · exact .inr ⟨d, by simp [hd], h⟩
    · rename_i hc
      obtain ⟨h1, h2, h3, h4, h5, h6⟩ := ih (c.name :: names) old (add c l) (fun n hn => List.mem_cons_of_mem _ (h n hn))
      refine ⟨fun n => ?_, fun n => ?_, fun n => ?_, fun e he => ?_, fun hs => h5 (insertByName_sorted hs), fun hnd => h6 (List.nodup_cons.2 ⟨hc, hnd⟩)⟩
      · rw [h1, hn, List.mem_cons]
        constructor
        · rintro ((h | h) | h); exact .inr (.inl h); exact .inl h; exact .inr (.inr h)
        · rintro (h | h | h); exact .inl (.inr h); exact .inl (.inl h); exact .inr h
      · rw [h2, hn, not_or]
        constructor
        · rintro ⟨a, b⟩; exact ⟨a, fun e => hc (e ▸ h n a), b⟩
        · rintro ⟨a, _, b⟩; exact ⟨a, b⟩
      · rw [h3, has_add, hn, List.mem_cons, not_or]
        constructor
        · rintro ((h | h) | ⟨h, h1, h2⟩)
          · exact .inl h
          · exact .inr ⟨.inl h, h ▸ hc⟩
          · exact .inr ⟨.inr h, h2⟩
        · rintro (h | ⟨h | h, h2⟩)
          · exact .inl (.inl h)
          · exact .inl (.inr h)
          · by_cases e : n = c.name
            · exact .inl (.inr e)
            · exact .inr ⟨h, e, h2⟩
      · rcases h4 e he with h | ⟨d, hd, h⟩
        · rcases mem_insertByName h with h | h
          · exact .inr ⟨c, by simp, h⟩
          · exact .inl h
        · exact .inr ⟨d, by simp [hd], h⟩

theorem dropOld_spec (ns : List (List Comp)) : ∀ (names : List (List Comp)) (l : List Entry),
    (∀ n, n ∈ (dropOld ns names l).1 ↔ n ∈ names ∧ n ∉ ns) ∧
    (∀ n, Has (dropOld ns names l).2 n ↔ Has l n ∧ n ∉ ns) ∧
    (∀ e ∈ (dropOld ns names l).2, e ∈ l) ∧
    (CSorted l → CSorted (dropOld ns names l).2) ∧ (names.Nodup → (dropOld ns names l).1.Nodup) := by
  induction ns with
  | nil =>
    intro names l
    simp only [dropOld]
    exact ⟨by simp, by simp, fun e he => he, id, id⟩
  | cons m ns ih =>
    intro names l
    obtain ⟨h1, h2, h3, h4, h5⟩ := ih (names.filter (· ≠ m)) (remove m l)
    unfold dropOld
    refine ⟨fun n => ?_, fun n => ?_, fun e he => remove_mem (h3 e he), fun hs => h4 (remove_sorted hs), fun hn => h5 (List.Pairwise.filter _ hn)⟩
    · rw [h1, List.mem_filter, List.mem_cons, not_or]
      simp only [ne_eq, decide_eq_true_eq]
      exact ⟨fun ⟨⟨a, b⟩, c⟩ => ⟨a, b, c⟩, fun ⟨a, b, c⟩ => ⟨⟨a, b⟩, c⟩⟩
    · rw [h2, has_remove, List.mem_cons, not_or]
      exact ⟨fun ⟨⟨a, b⟩, c⟩ => ⟨a, b, c⟩, fun ⟨a, b, c⟩ => ⟨⟨a, b⟩, c⟩⟩

/-- What refreshing a group does to the names it lists and to the anchors. -/
structure Refreshed (now : Int) (fs : Files) (g g' : Group) (l l' : List Entry) : Prop where
  id : g'.id = g.id
  has : ∀ n, Has l' n ↔ (Has l n ∨ (n ∈ g'.names ∧ n ∉ g.names)) ∧ ¬ (n ∈ g.names ∧ n ∉ g'.names)
  mem : ∀ e ∈ l', e ∈ l ∨ ∃ path isDir, ∃ c ∈ (fs path isDir).certs, e = ⟨c, 0⟩
  sorted : CSorted l → CSorted l'
  nodup : g.names.Nodup → g'.names.Nodup

theorem refreshed_self (now : Int) (fs : Files) (g : Group) (l : List Entry) : Refreshed now fs g g l l :=
  ⟨rfl, fun n => ⟨fun h => ⟨.inl h, fun h => h.2 h.1⟩, fun h => h.1.elim _root_.id (fun x => absurd x.1 x.2)⟩, fun e he => .inl he, _root_.id, _root_.id⟩

theorem refresh_spec {now : Int} {fs : Files} {g g' : Group} {l l' : List Entry} (h : g.refresh now fs l = (.ok, g', l')) :
    Refreshed now fs g g' l l' ∧
    (g.kind = .static → g' = g) ∧
    (∀ path isDir period expire, g.kind = .dynamic path isDir period expire →
      (now < expire → g' = g) ∧
      (¬ now < expire → g'.kind = .dynamic path isDir period (now + period) ∧ ∀ n, n ∈ g'.names ↔ Spec.has fs path isDir n)) := by
  unfold Group.refresh at h
  split at h
  · rename_i hk
    simp only [Prod.mk.injEq, true_and] at h
    obtain ⟨rfl, rfl⟩ := h
    refine ⟨refreshed_self _ _ _ _, fun _ => rfl, fun path isDir period expire hk' => ?_⟩
    rw [hk] at hk'; simp at hk'
  · rename_i path isDir period expire hk
    split at h
    · rename_i ht
      simp only [Prod.mk.injEq, true_and] at h
      obtain ⟨rfl, rfl⟩ := h
      refine ⟨refreshed_self _ _ _ _, fun _ => rfl, fun path' isDir' period' expire' hk' => ?_⟩
      rw [hk] at hk'
      cases hk'
      exact ⟨fun _ => rfl, fun h => absurd ht h⟩
    · rename_i ht
      split at h
      · simp at h
      · simp only at h
        split at h
        · simp at h
        · simp only [Prod.mk.injEq, true_and] at h
          obtain ⟨h1, h2⟩ := h
          obtain ⟨a1, a2, a3, a4, a5, a6⟩ := loadCerts_spec (fs path isDir).certs g.names g.names l (fun n h => h)
          obtain ⟨b1, b2, b3, b4, b5⟩ := dropOld_spec (loadCerts (fs path isDir).certs g.names g.names l).2.1 (loadCerts (fs path isDir).certs g.names g.names l).1
            (loadCerts (fs path isDir).certs g.names g.names l).2.2
          have hnames : ∀ n, n ∈ g'.names ↔ Named (fs path isDir).certs n := by
            intro n
            rw [← h1]
            simp only
            rw [b1, a1, a2]
            constructor
            · rintro ⟨h | h, h'⟩
              · exact Classical.byContradiction fun hc => h' ⟨h, hc⟩
              · exact h
            · intro h; exact ⟨.inr h, fun h' => h'.2 h⟩
          refine ⟨⟨by rw [← h1], fun n => ?_, fun e he => ?_, fun hs => by rw [← h2]; exact b4 (a5 hs), fun hn => by rw [← h1]; exact b5 (a6 hn)⟩, fun hs => ?_,
            fun path' isDir' period' expire' hk' => ?_⟩
          · rw [hnames, ← h2, b2, a3, a2]
          · rw [← h2] at he
            rcases a4 e (b3 e he) with h | ⟨c, hc, h⟩
            · exact .inl h
            · exact .inr ⟨path, isDir, c, hc, h⟩
          · rw [hk] at hs; simp at hs
          · rw [hk] at hk'
            cases hk'
            exact ⟨fun h => absurd h ht, fun _ => ⟨by rw [← h1], hnames⟩⟩

/-! ### States -/

/-- The groups of a state, represented by their views. -/
def Rep (g : Option Group) (v : Spec.View) : Prop :=
  match g, v with
  | none, .absent => True
  | some g, .static names => g.kind = .static ∧ ∀ n, n ∈ g.names ↔ names n
  | some g, .dynamic path isDir period loaded names => g.kind = .dynamic path isDir period (loaded + period) ∧ 0 < period ∧ ∀ n, n ∈ g.names ↔ names n
  | _, _ => False

structure Inv (s : St) : Prop where
  ids : (s.groups.map (·.id)).Nodup
  names : ∀ g ∈ s.groups, g.names.Nodup
  sorted : CSorted s.anchors
  listed : ∀ n, Has s.anchors n → ∃ g ∈ s.groups, n ∈ g.names

theorem group_some {s : St} (h : (s.groups.map (·.id)).Nodup) {g : Group} (hg : g ∈ s.groups) : s.group g.id = some g := by
  unfold St.group
  generalize s.groups = gs at *
  induction gs with
  | nil => cases hg
  | cons x gs ih =>
    simp only [List.map_cons, List.nodup_cons] at h
    by_cases hx : x.id = g.id
    · rcases List.mem_cons.1 hg with rfl | hg
      · simp
      · exact absurd (List.mem_map.2 ⟨g, hg, hx.symm⟩) h.1
    · rcases List.mem_cons.1 hg with rfl | hg
      · exact absurd rfl hx
      · rw [List.find?_cons_of_neg (by simpa using hx)]
        exact ih h.2 hg

theorem group_mem {s : St} {id : Bytes} {g : Group} (h : s.group id = some g) : g ∈ s.groups ∧ g.id = id := by
  unfold St.group at h
  exact ⟨List.mem_of_find?_eq_some h, by have := List.find?_some h; simpa using this⟩

theorem group_none {s : St} {id : Bytes} : s.group id = none ↔ ∀ g ∈ s.groups, g.id ≠ id := by
  unfold St.group
  rw [List.find?_eq_none]
  simp

theorem set_group {gs : List Group} {g : Group} (id : Bytes) (l : List Entry) (h : ∃ x ∈ gs, x.id = g.id) :
    St.group ⟨gs.map fun h => if h.id = g.id then g else h, l⟩ id = if id = g.id then some g else St.group ⟨gs, l⟩ id := by
  unfold St.group
  simp only
  induction gs with
  | nil => obtain ⟨x, hx, _⟩ := h; cases hx
  | cons y gs ih =>
    simp only [List.map_cons]
    by_cases hy : y.id = g.id
    · rw [if_pos hy]
      by_cases hi : id = g.id
      · rw [if_pos hi, List.find?_cons_of_pos (by simp [hi])]
      · rw [if_neg hi, List.find?_cons_of_neg (by simpa using fun e => hi e.symm), List.find?_cons_of_neg (by simpa [hy] using fun e => hi e.symm)]
        by_cases hex : ∃ x ∈ gs, x.id = g.id
        · rw [ih hex, if_neg hi]
        · have : (gs.map fun h => if h.id = g.id then g else h) = gs := by
            rw [List.map_congr_left (g := fun x => x)]
            · simp
            · intro a ha; rw [if_neg (fun e => hex ⟨a, ha, e⟩)]
          rw [this]
    · rw [if_neg hy]
      have hex : ∃ x ∈ gs, x.id = g.id := by
        obtain ⟨x, hx, e⟩ := h
        rcases List.mem_cons.1 hx with rfl | hx
        · exact absurd e hy
        · exact ⟨x, hx, e⟩
      by_cases hyi : y.id = id
      · rw [List.find?_cons_of_pos (by simpa using hyi), List.find?_cons_of_pos (by simpa using hyi), if_neg (fun e => hy (hyi.trans e))]
      · rw [List.find?_cons_of_neg (by simpa using hyi), List.find?_cons_of_neg (by simpa using hyi), ih hex]

theorem set_ids {gs : List Group} {g : Group} : (gs.map fun h => if h.id = g.id then g else h).map (·.id) = gs.map (·.id) := by
  rw [List.map_map]
  apply List.map_congr_left
  intro a _
  simp only [Function.comp]
  split
  · rename_i h; exact h.symm
  · rfl

theorem set_mem {gs : List Group} {g x : Group} (h : x ∈ gs.map fun h => if h.id = g.id then g else h) : x = g ∨ (x ∈ gs ∧ x.id ≠ g.id) := by
  obtain ⟨a, ha, e⟩ := List.mem_map.1 h
  split at e
  · exact .inl e.symm
  · rename_i hne; subst e; exact .inr ⟨ha, hne⟩

theorem mem_set {gs : List Group} {g x : Group} (h : x ∈ gs) (hx : x.id ≠ g.id) : x ∈ gs.map fun h => if h.id = g.id then g else h :=
  List.mem_map.2 ⟨x, h, by rw [if_neg hx]⟩

theorem mem_set_self {gs : List Group} {g : Group} (h : ∃ x ∈ gs, x.id = g.id) : g ∈ gs.map fun h => if h.id = g.id then g else h := by
  obtain ⟨x, hx, e⟩ := h
  exact List.mem_map.2 ⟨x, hx, by rw [if_pos e]⟩

/-- Replacing a group by a refreshed one. -/
theorem inv_refreshed {now : Int} {fs : Files} {s : St} {g g' : Group} {l' : List Entry} (hi : Inv s) (hg : g ∈ s.groups) (hr : Refreshed now fs g g' s.anchors l') :
    Inv ⟨s.setGroup g', l'⟩ := by
  have hex : ∃ x ∈ s.groups, x.id = g'.id := ⟨g, hg, hr.id.symm⟩
  refine ⟨?_, ?_, hr.sorted hi.sorted, ?_⟩
  · show ((s.groups.map fun h => if h.id = g'.id then g' else h).map (·.id)).Nodup
    rw [set_ids]; exact hi.ids
  · intro x hx
    rcases set_mem hx with rfl | ⟨hx, _⟩
    · exact hr.nodup (hi.names g hg)
    · exact hi.names x hx
  · intro n hn
    obtain ⟨h1, h2⟩ := (hr.has n).1 hn
    by_cases hn' : n ∈ g'.names
    · exact ⟨g', mem_set_self hex, hn'⟩
    · have h3 : n ∉ g.names := fun h => h2 ⟨h, hn'⟩
      rcases h1 with h1 | h1
      · obtain ⟨x, hx, hxn⟩ := hi.listed n h1
        refine ⟨x, mem_set hx (fun e => ?_), hxn⟩
        have : x = g := by
          have a := group_some hi.ids hx
          have b := group_some hi.ids hg
          rw [e, hr.id, b] at a
          exact (Option.some.inj a).symm
        exact h3 (this ▸ hxn)
      · exact absurd h1.1 hn'

theorem rep_reread {now : Int} {fs : Files} {g g' : Group} {l l' : List Entry} {v : Spec.View} (h : g.refresh now fs l = (.ok, g', l'))
    (hr : Rep (some g) v) : Rep (some g') (Spec.reread now fs v) := by
  obtain ⟨_, h1, h2⟩ := refresh_spec h
  cases v with
  | absent => exact hr
  | static names =>
    obtain ⟨a, b⟩ := hr
    rw [h1 a]
    exact ⟨a, b⟩
  | dynamic path isDir period loaded names =>
    obtain ⟨a, hp, b⟩ := hr
    obtain ⟨h3, h4⟩ := h2 _ _ _ _ a
    simp only [Spec.reread]
    split
    · rename_i ht
      rw [h3 ht]
      exact ⟨a, hp, b⟩
    · rename_i ht
      obtain ⟨h5, h6⟩ := h4 ht
      exact ⟨h5, hp, h6⟩

theorem reread_idem (now : Int) (fs : Files) (g : Group) (v : Spec.View) (hr : Rep (some g) v) : Spec.reread now fs (Spec.reread now fs v) = Spec.reread now fs v := by
  cases v with
  | absent => rfl
  | static names => rfl
  | dynamic path isDir period loaded names =>
    have hp := hr.2.1
    by_cases ht : now < loaded + period
    · simp only [Spec.reread, if_pos ht]
    · simp only [Spec.reread, if_neg ht]; rw [if_pos (by omega)]

/-- The state corresponds to the views of its groups. -/
structure Sim (s : St) (V : Bytes → Spec.View) : Prop where
  inv : Inv s
  rep : ∀ id, Rep (s.group id) (V id)

theorem Rep.names {g : Group} {v : Spec.View} (h : Rep (some g) v) (n : List Comp) : n ∈ g.names ↔ v.names n := by
  cases v with
  | absent => exact absurd h (by simp [Rep])
  | static names => exact h.2 n
  | dynamic path isDir period loaded names => exact h.2.2 n

theorem Rep.none {v : Spec.View} (h : Rep none v) : v = .absent := by
  cases v with
  | absent => rfl
  | _ => exact absurd h (by simp [Rep])

theorem reread_absent {now : Int} {fs : Files} {v : Spec.View} (h : v = .absent) : Spec.reread now fs v = .absent := by subst h; rfl

theorem Sim.listed {s : St} {V : Bytes → Spec.View} (h : Sim s V) {n : List Comp} (hn : Has s.anchors n) : ∃ id, (V id).names n := by
  obtain ⟨g, hg, h1⟩ := h.inv.listed n hn
  have := h.rep g.id
  rw [group_some h.inv.ids hg] at this
  exact ⟨g.id, (this.names n).1 h1⟩

theorem refreshGroup_spec {now : Int} {fs : Files} {s s' : St} {V : Bytes → Spec.View} (hs : Sim s V) {id : Bytes} {o : Out} (h : s.refreshGroup now fs id = (o, s'))
    (ho : o = .ok ∨ o = .refused) :
    Sim s' (fun i => if i = id then Spec.reread now fs (V i) else V i) ∧
    (∀ e ∈ s'.anchors, e ∈ s.anchors ∨ ∃ path isDir, ∃ c ∈ (fs path isDir).certs, e = ⟨c, 0⟩) ∧
    (∀ n, ((∃ i, (V i).names n) → Has s.anchors n) → ((V id).names n → (Spec.reread now fs (V id)).names n) →
      (∃ i, (if i = id then Spec.reread now fs (V i) else V i).names n) → Has s'.anchors n) := by
  unfold St.refreshGroup at h
  cases hg : s.group id with
  | none =>
    rw [hg] at h
    simp only [Prod.mk.injEq] at h
    obtain ⟨_, rfl⟩ := h
    have ha : V id = .absent := by have := hs.rep id; rw [hg] at this; exact this.none
    have hV : (fun i => if i = id then Spec.reread now fs (V i) else V i) = V := by
      funext i
      split
      · rename_i e; rw [e, ha]; rfl
      · rfl
    refine ⟨by rw [hV]; exact hs, fun e he => .inl he, fun n h1 _ h3 => h1 ?_⟩
    obtain ⟨i, hi⟩ := h3
    rw [show (if i = id then Spec.reread now fs (V i) else V i) = V i from congrFun hV i] at hi
    exact ⟨i, hi⟩
  | some g =>
    rw [hg] at h
    simp only [Prod.mk.injEq] at h
    obtain ⟨h1, h2⟩ := h
    obtain ⟨hgm, hgi⟩ := group_mem hg
    have hok : (g.refresh now fs s.anchors).1 = .ok := by
      rcases ho with ho | ho
      · rw [h1, ho]
      · exfalso
        rw [ho] at h1
        unfold Group.refresh at h1
        split at h1
        · simp at h1
        · split at h1
          · simp at h1
          · split at h1
            · simp at h1
            · simp only at h1
              split at h1 <;> simp at h1
    have hr : g.refresh now fs s.anchors = (.ok, (g.refresh now fs s.anchors).2.1, (g.refresh now fs s.anchors).2.2) := Prod.ext hok rfl
    generalize (g.refresh now fs s.anchors).2.1 = g' at *
    generalize (g.refresh now fs s.anchors).2.2 = l' at *
    obtain ⟨hR, _, _⟩ := refresh_spec hr
    have hrep := hs.rep id
    rw [hg] at hrep
    have hrep' := rep_reread hr hrep
    subst h2
    refine ⟨⟨inv_refreshed hs.inv hgm hR, fun i => ?_⟩, hR.mem, fun n h1 h2 h3 => ?_⟩
    · show Rep (St.group ⟨s.groups.map fun h => if h.id = g'.id then g' else h, l'⟩ i) _
      rw [set_group i l' ⟨g, hgm, hR.id.symm⟩, hR.id, hgi]
      split
      · rename_i e; subst e; exact hrep'
      · exact hs.rep i
    · obtain ⟨i, hi⟩ := h3
      have hn : n ∈ g.names → n ∈ g'.names := fun h => (hrep'.names n).2 (h2 ((hrep.names n).1 h))
      refine (hR.has n).2 ⟨?_, fun h => h.2 (hn h.1)⟩
      by_cases hx : ∃ i, (V i).names n
      · exact .inl (h1 hx)
      · split at hi
        · rename_i e
          subst e
          exact .inr ⟨(hrep'.names n).2 hi, fun h => hx ⟨i, (hrep.names n).1 h⟩⟩
        · exact absurd ⟨i, hi⟩ hx

theorem refreshAll_spec (now : Int) (fs : Files) (ids : List Bytes) : ∀ (s s' : St) (V : Bytes → Spec.View), Sim s V → s.refreshAll now fs ids = (.ok, s') →
    Sim s' (fun i => if i ∈ ids then Spec.reread now fs (V i) else V i) ∧
    (∀ e ∈ s'.anchors, e ∈ s.anchors ∨ ∃ path isDir, ∃ c ∈ (fs path isDir).certs, e = ⟨c, 0⟩) ∧
    (∀ n, ((∃ i, (V i).names n) → Has s.anchors n) → (∀ i, (V i).names n → (Spec.reread now fs (V i)).names n) →
      (∃ i, (if i ∈ ids then Spec.reread now fs (V i) else V i).names n) → Has s'.anchors n) := by
  induction ids with
  | nil =>
    intro s s' V hs h
    simp only [St.refreshAll, Prod.mk.injEq, true_and] at h
    subst h
    simp only [List.not_mem_nil, if_false]
    exact ⟨hs, fun e he => .inl he, fun n h1 _ h3 => h1 h3⟩
  | cons id ids ih =>
    intro s s' V hs h
    unfold St.refreshAll at h
    simp only at h
    split at h
    · rename_i hf
      rw [h] at hf
      simp at hf
    · rename_i hf
      have hf' : (s.refreshGroup now fs id).1 = .ok ∨ (s.refreshGroup now fs id).1 = .refused := by
        generalize (s.refreshGroup now fs id).1 = o at hf
        cases o <;> simp at hf ⊢
      obtain ⟨a1, a2, a3⟩ := refreshGroup_spec hs (o := (s.refreshGroup now fs id).1) (s' := (s.refreshGroup now fs id).2) rfl hf'
      obtain ⟨b1, b2, b3⟩ := ih _ _ _ a1 h
      have hV : (fun i => if i ∈ ids then Spec.reread now fs (if i = id then Spec.reread now fs (V i) else V i) else if i = id then Spec.reread now fs (V i) else V i) =
          (fun i => if i ∈ id :: ids then Spec.reread now fs (V i) else V i) := by
        funext i
        by_cases h1 : i = id
        · subst h1
          simp only [if_true, List.mem_cons, true_or]
          split
          · have := hs.rep i
            cases hg : s.group i with
            | none => rw [hg] at this; rw [this.none]; rfl
            | some g => rw [hg] at this; exact reread_idem now fs g _ this
          · rfl
        · simp only [if_neg h1]
          by_cases h2 : i ∈ ids
          · rw [if_pos h2, if_pos (List.mem_cons_of_mem _ h2)]
          · rw [if_neg h2, if_neg (by simp [h1, h2])]
      refine ⟨hV ▸ b1, fun e he => ?_, fun n h1 h2 h3 => b3 n (fun hx => a3 n h1 (h2 id) hx) (fun i hi => ?_) ?_⟩
      · rcases b2 e he with h | h
        · exact a2 e h
        · exact .inr h
      · split at hi
        · rename_i e
          rw [if_pos e]
          have := hs.rep i
          cases hg : s.group i with
          | none => rw [hg] at this; rw [this.none] at hi; exact absurd hi (by simp [Spec.reread, Spec.View.names])
          | some g => rw [hg] at this; rw [reread_idem now fs g _ this]; exact hi
        · rename_i e
          rw [if_neg e]
          exact h2 i hi
      · obtain ⟨i, hi⟩ := h3
        exact ⟨i, by rw [show (if i ∈ ids then Spec.reread now fs (if i = id then Spec.reread now fs (V i) else V i) else if i = id then Spec.reread now fs (V i) else V i) = _ from
          congrFun hV i]; exact hi⟩

end Ndn.Anchors
