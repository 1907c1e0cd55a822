import Verif.Mgmt.DispatcherSpec
import Verif.Mgmt.CommandProps
import Verif.Mgmt.DatasetProps
/-
Lemmas about the dispatcher: the state is what the past says.
-/
namespace Ndn.Mgmt
open Tlv Block Name Packet

theorem overlaps_iff (x y : List Comp) : overlaps x y = true ↔ Overlap x y := by
  unfold overlaps Overlap; simp

theorem Overlap.symm {x y : List Comp} (h : Overlap x y) : Overlap y x := Or.symm h

theorem snoc_inv {α : Type} {l a b : List α} {x y : α} (h : l ++ [x] = a ++ y :: b) :
    (b = [] ∧ a = l ∧ x = y) ∨ ∃ b', b = b' ++ [x] ∧ l = a ++ y :: b' := by
  rcases List.eq_nil_or_concat b with rfl | ⟨b', z, rfl⟩
  · obtain ⟨h1, h2⟩ := List.append_inj' h rfl
    exact Or.inl ⟨rfl, h1.symm, by simpa using h2⟩
  · rw [List.concat_eq_append, show a ++ y :: (b' ++ [z]) = (a ++ y :: b') ++ [z] by simp] at h
    obtain ⟨h1, h2⟩ := List.append_inj' h rfl
    have : x = z := by simpa using h2
    subst this
    exact Or.inr ⟨b', by simp, h1⟩

theorem TopLive_snoc (l : Log) (e : Ev) (os : List Out) (t : List Comp) :
    TopLive (l ++ [(e, os)]) t ↔ (e = .addTop t ∧ os = []) ∨ (TopLive l t ∧ e ≠ .removeTop t) := by
  constructor
  · rintro ⟨a, b, hl, hb⟩
    rcases snoc_inv hl with ⟨_, _, h⟩ | ⟨b', rfl, h⟩
    · cases h; exact Or.inl ⟨rfl, rfl⟩
    · exact Or.inr ⟨⟨a, b', h, fun x hx => hb x (List.mem_append_left _ hx)⟩, hb (e, os) (by simp)⟩
  · rintro (⟨rfl, rfl⟩ | ⟨⟨a, b, rfl, hb⟩, hne⟩)
    · exact ⟨l, [], rfl, by intro x hx; cases hx⟩
    · refine ⟨a, b ++ [(e, os)], by simp, ?_⟩
      intro x hx
      rcases List.mem_append.1 hx with hx | hx
      · exact hb x hx
      · rw [List.mem_singleton.1 hx]; exact hne

theorem HasHandler_snoc (l : Log) (e : Ev) (os : List Out) (rel : List Comp) (h : Handler) :
    HasHandler (l ++ [(e, os)]) rel h ↔ HasHandler l rel h ∨ (e = .addHandler rel h ∧ os = []) := by
  unfold HasHandler
  rw [List.mem_append, List.mem_singleton, Prod.mk.injEq]
  constructor
  · rintro (h | ⟨rfl, rfl⟩)
    · exact Or.inl h
    · exact Or.inr ⟨rfl, rfl⟩
  · rintro (h | ⟨rfl, rfl⟩)
    · exact Or.inl h
    · exact Or.inr ⟨rfl, rfl⟩

theorem outs_snoc (l : Log) (e : Ev) (os : List Out) : outs (l ++ [(e, os)]) = outs l ++ os := by
  unfold outs; simp

def reqOuts (os : List Out) : List (List Comp × List Comp × Option Params) :=
  os.filterMap fun | .authorize t n p => some (t, n, p) | _ => none
def runOuts (os : List Out) : List (List Comp) :=
  os.filterMap fun | .handle _ n _ => some n | _ => none
def storeOuts (os : List Out) : List OutData :=
  os.filterMap fun | .store x => some x | _ => none

theorem requests_snoc (l : Log) (e : Ev) (os : List Out) : requests (l ++ [(e, os)]) = requests l ++ reqOuts os := by
  unfold requests reqOuts; rw [outs_snoc, List.filterMap_append]; rfl
theorem handled_snoc (l : Log) (e : Ev) (os : List Out) : handled (l ++ [(e, os)]) = handled l ++ runOuts os := by
  unfold handled runOuts; rw [outs_snoc, List.filterMap_append]; rfl
theorem storedBy_snoc (l : Log) (e : Ev) (os : List Out) : storedBy (l ++ [(e, os)]) = storedBy l ++ storeOuts os := by
  unfold storedBy storeOuts; rw [outs_snoc, List.filterMap_append]; rfl

theorem storesOf_eq (os : List Out) : storesOf os = storeOuts os := by
  induction os with
  | nil => rfl
  | cons o os ih => cases o <;> simp [storesOf, storeOuts, ih] <;> simpa [storeOuts] using ih

/-- How the parameters held by the continuations relate to those that were authorized. -/
def ParamsOk (h : Handler) (p0 p : Option Params) : Prop :=
  match h with
  | .command c => ∃ a b, p0 = some a ∧ p = some b ∧ (b = a ∨ (c.validateRequest a = .accept ∧ b = c.applyDefaults a))
  | .oldCommand v => ∃ a b, p0 = some a ∧ p = some b ∧ Normalised v a b
  | .dataset => p0 = none ∧ p = none
  | .stream => False

structure DispInv (l : Log) (d : Disp) : Prop where
  tops : ∀ t, TopLive l t ↔ ∃ fs, (t, fs) ∈ d.tops
  captured : ∀ x ∈ d.tops, x.2 = d.handlers
  topsPw : d.tops.Pairwise (fun x y => ¬ Overlap x.1 y.1)
  handlers : ∀ rel h, (rel, h) ∈ d.handlers ↔ HasHandler l rel h
  handlersPw : d.handlers.Pairwise (fun x y => ¬ Overlap x.1 y.1)
  reqLen : d.reqs.length = (requests l).length
  reqs : ∀ (i : Nat) r, d.reqs[i]? = some r → ∃ p0, (requests l)[i]? = some (r.top, r.name, p0) ∧
    (r.rel, r.handler) ∈ d.handlers ∧ r.top ++ r.rel <+: r.name ∧ ParamsOk r.handler p0 r.params
  runs : d.runs = handled l
  stored : d.stored = storedBy l

/-- An event that registers nothing. -/
theorem inv_quiet {l : Log} {d : Disp} (i : DispInv l d) (e : Ev) (os : List Out) (d' : Disp)
    (he : (∀ t, e ≠ .addTop t) ∧ (∀ t, e ≠ .removeTop t) ∧ ∀ r h, e ≠ .addHandler r h)
    (h1 : d'.tops = d.tops) (h2 : d'.handlers = d.handlers)
    (h3 : d'.reqs.length = d.reqs.length + (reqOuts os).length)
    (h4 : ∀ (i : Nat) r, d'.reqs[i]? = some r → ∃ p0, (requests l ++ reqOuts os)[i]? = some (r.top, r.name, p0) ∧
      (r.rel, r.handler) ∈ d.handlers ∧ r.top ++ r.rel <+: r.name ∧ ParamsOk r.handler p0 r.params)
    (h5 : d'.runs = d.runs ++ runOuts os) (h6 : d'.stored = d.stored ++ storeOuts os) :
    DispInv (l ++ [(e, os)]) d' := by
  constructor
  · intro t
    rw [TopLive_snoc, h1, ← i.tops]
    constructor
    · rintro (⟨h, _⟩ | ⟨h, _⟩)
      · exact absurd h (he.1 t)
      · exact h
    · intro h; exact Or.inr ⟨h, he.2.1 t⟩
  · rw [h1, h2]; exact i.captured
  · rw [h1]; exact i.topsPw
  · intro rel h
    rw [HasHandler_snoc, h2, i.handlers]
    constructor
    · exact Or.inl
    · rintro (h' | ⟨h', _⟩)
      · exact h'
      · exact absurd h' (he.2.2 rel h)
  · rw [h2]; exact i.handlersPw
  · rw [requests_snoc, h3, List.length_append, i.reqLen]
  · rw [requests_snoc, h2]; exact h4
  · rw [handled_snoc, h5, i.runs]
  · rw [storedBy_snoc, h6, i.stored]

theorem requests_left {l : Log} {d : Disp} (i : DispInv l d) (os : List Out) (k : Nat) (r : Req) (h : d.reqs[k]? = some r) :
    ∃ p0, (requests l ++ reqOuts os)[k]? = some (r.top, r.name, p0) ∧
      (r.rel, r.handler) ∈ d.handlers ∧ r.top ++ r.rel <+: r.name ∧ ParamsOk r.handler p0 r.params := by
  obtain ⟨p0, h1, h2⟩ := i.reqs k r h
  refine ⟨p0, ?_, h2⟩
  rw [List.getElem?_append_left]
  · exact h1
  · have := (List.getElem?_eq_some_iff.1 h).1
    rw [← i.reqLen]; exact this

/-- An event that changes nothing but the streams. -/
theorem inv_same_state {l : Log} {d : Disp} (i : DispInv l d) (e : Ev) (os : List Out)
    (he : (∀ t, e ≠ .addTop t) ∧ (∀ t, e ≠ .removeTop t) ∧ ∀ r h, e ≠ .addHandler r h)
    (h1 : reqOuts os = []) (h2 : runOuts os = []) (h3 : storeOuts os = []) : DispInv (l ++ [(e, os)]) d := by
  apply inv_quiet i e os d he rfl rfl (by rw [h1]; rfl) _ (by rw [h2]; simp) (by rw [h3]; simp)
  intro k r hr
  exact requests_left i os k r hr

/-- A refused or removed registration. -/
theorem inv_refused {l : Log} {d : Disp} (i : DispInv l d) (e : Ev) (os : List Out) (ho : os ≠ [])
    (he : ∀ t, e ≠ .removeTop t) (h1 : reqOuts os = []) (h2 : runOuts os = []) (h3 : storeOuts os = []) :
    DispInv (l ++ [(e, os)]) d := by
  constructor
  · intro t
    rw [TopLive_snoc, ← i.tops]
    constructor
    · rintro (⟨_, h⟩ | ⟨h, _⟩)
      · exact absurd h ho
      · exact h
    · intro h; exact Or.inr ⟨h, he t⟩
  · exact i.captured
  · exact i.topsPw
  · intro rel h
    rw [HasHandler_snoc, i.handlers]
    constructor
    · exact Or.inl
    · rintro (h' | ⟨_, h'⟩)
      · exact h'
      · exact absurd h' ho
  · exact i.handlersPw
  · rw [requests_snoc, h1, List.append_nil]; exact i.reqLen
  · rw [requests_snoc, h1, List.append_nil]; exact i.reqs
  · rw [handled_snoc, h2, List.append_nil]; exact i.runs
  · rw [storedBy_snoc, h3, List.append_nil]; exact i.stored

theorem addTop_step {s : Settings} {l : Log} {d : Disp} (i : DispInv l d) (p : List Comp) :
    Expected s l (.addTop p) (d.addTop p).1 ∧ DispInv (l ++ [(.addTop p, (d.addTop p).1)]) (d.addTop p).2 := by
  have hany : d.tops.any (fun x => overlaps x.1 p) = true ↔ ∃ t, TopLive l t ∧ Overlap t p := by
    rw [List.any_eq_true]
    constructor
    · rintro ⟨⟨t, fs⟩, hx, ho⟩
      exact ⟨t, (i.tops t).2 ⟨fs, hx⟩, (overlaps_iff _ _).1 ho⟩
    · rintro ⟨t, ht, ho⟩
      obtain ⟨fs, hfs⟩ := (i.tops t).1 ht
      exact ⟨(t, fs), hfs, (overlaps_iff _ _).2 ho⟩
  unfold Disp.addTop
  by_cases ho : d.tops.any (fun x => overlaps x.1 p) = true
  · rw [if_pos ho]
    have hx := hany.1 ho
    refine ⟨⟨fun _ => rfl, ?_⟩, inv_refused i _ _ (by simp) (by simp) rfl rfl rfl⟩
    intro hn
    obtain ⟨t, h1, h2⟩ := hx
    exact absurd h2 (hn t h1)
  · rw [if_neg ho]
    have hn : ∀ t, TopLive l t → ¬ Overlap t p := fun t h1 h2 => ho (hany.2 ⟨t, h1, h2⟩)
    refine ⟨⟨fun ⟨t, h1, h2⟩ => absurd h2 (hn t h1), fun _ => rfl⟩, ?_⟩
    constructor
    · intro t
      rw [TopLive_snoc, i.tops]
      simp only [Ev.addTop.injEq, List.mem_append, List.mem_singleton, Prod.mk.injEq]
      constructor
      · rintro (⟨rfl, _⟩ | ⟨⟨fs, h⟩, _⟩)
        · exact ⟨_, Or.inr ⟨rfl, rfl⟩⟩
        · exact ⟨fs, Or.inl h⟩
      · rintro ⟨fs, h | ⟨rfl, _⟩⟩
        · exact Or.inr ⟨⟨fs, h⟩, by simp⟩
        · exact Or.inl ⟨rfl, trivial⟩
    · intro x hx
      rcases List.mem_append.1 hx with hx | hx
      · exact i.captured x hx
      · rw [List.mem_singleton.1 hx]
    · rw [List.pairwise_append]
      refine ⟨i.topsPw, List.pairwise_singleton _ _, ?_⟩
      intro x hx y hy
      rw [List.mem_singleton.1 hy]
      exact hn x.1 ((i.tops x.1).2 ⟨x.2, hx⟩)
    · intro rel h
      rw [HasHandler_snoc, i.handlers]
      simp
    · exact i.handlersPw
    · rw [requests_snoc]; simpa [reqOuts] using i.reqLen
    · rw [requests_snoc]; simpa [reqOuts] using i.reqs
    · rw [handled_snoc]; simpa [runOuts] using i.runs
    · rw [storedBy_snoc]; simpa [storeOuts] using i.stored

theorem removeTop_step {s : Settings} {l : Log} {d : Disp} (i : DispInv l d) (p : List Comp) :
    Expected s l (.removeTop p) (d.removeTop p).1 ∧ DispInv (l ++ [(.removeTop p, (d.removeTop p).1)]) (d.removeTop p).2 := by
  refine ⟨rfl, ?_⟩
  unfold Disp.removeTop
  constructor
  · intro t
    rw [TopLive_snoc, i.tops]
    simp only [List.mem_filter, ne_eq, decide_not, Bool.not_eq_true', decide_eq_false_iff_not, Ev.removeTop.injEq,
      reduceCtorEq, false_and, false_or]
    constructor
    · rintro ⟨⟨fs, h⟩, hne⟩; exact ⟨fs, h, fun h => hne h.symm⟩
    · rintro ⟨fs, h, hne⟩; exact ⟨⟨fs, h⟩, fun h => hne h.symm⟩
  · intro x hx; exact i.captured x (List.mem_filter.1 hx).1
  · exact i.topsPw.filter _
  · intro rel h
    rw [HasHandler_snoc, i.handlers]
    simp
  · exact i.handlersPw
  · rw [requests_snoc]; simpa [reqOuts] using i.reqLen
  · rw [requests_snoc]; simpa [reqOuts] using i.reqs
  · rw [handled_snoc]; simpa [runOuts] using i.runs
  · rw [storedBy_snoc]; simpa [storeOuts] using i.stored

theorem addHandler_eq (d : Disp) (rel : List Comp) (h : Handler) (h1 : d.tops = [])
    (h2 : ¬ d.handlers.any (fun x => overlaps x.1 rel) = true) :
    ∃ m, d.addHandler rel h = ([], { d with handlers := d.handlers ++ [(rel, h)], streams := m }) := by
  unfold Disp.addHandler
  rw [if_neg (by simp [h1]), if_neg h2]
  cases h <;> exact ⟨_, rfl⟩

theorem addHandler_step {s : Settings} {l : Log} {d : Disp} (i : DispInv l d) (rel : List Comp) (h : Handler) :
    Expected s l (.addHandler rel h) (d.addHandler rel h).1 ∧
      DispInv (l ++ [(.addHandler rel h, (d.addHandler rel h).1)]) (d.addHandler rel h).2 := by
  have hany : d.handlers.any (fun x => overlaps x.1 rel) = true ↔ ∃ r h, HasHandler l r h ∧ Overlap r rel := by
    rw [List.any_eq_true]
    constructor
    · rintro ⟨⟨r, h⟩, hx, ho⟩
      exact ⟨r, h, (i.handlers r h).1 hx, (overlaps_iff _ _).1 ho⟩
    · rintro ⟨r, h, ht, ho⟩
      exact ⟨(r, h), (i.handlers r h).2 ht, (overlaps_iff _ _).2 ho⟩
  have htops : d.tops ≠ [] ↔ ∃ t, TopLive l t := by
    constructor
    · intro hne
      cases hd : d.tops with
      | nil => exact absurd hd hne
      | cons x xs => exact ⟨x.1, (i.tops x.1).2 ⟨x.2, by rw [hd]; simp⟩⟩
    · rintro ⟨t, ht⟩ he
      obtain ⟨fs, hfs⟩ := (i.tops t).1 ht
      rw [he] at hfs; cases hfs
  by_cases h1 : d.tops ≠ []
  · have he : d.addHandler rel h = ([.domainError], d) := by unfold Disp.addHandler; rw [if_pos h1]
    rw [he]
    refine ⟨⟨fun _ => rfl, fun hn => ?_⟩, inv_refused i _ _ (by simp) (by simp) rfl rfl rfl⟩
    obtain ⟨t, ht⟩ := htops.1 h1
    exact absurd ht (hn t)
  · by_cases h2 : d.handlers.any (fun x => overlaps x.1 rel) = true
    · have he : d.addHandler rel h = ([.outOfRange], d) := by unfold Disp.addHandler; rw [if_neg h1, if_pos h2]
      rw [he]
      refine ⟨⟨fun hc => absurd (htops.2 hc) h1, fun _ => ⟨fun _ => rfl, fun hn => ?_⟩⟩,
        inv_refused i _ _ (by simp) (by simp) rfl rfl rfl⟩
      obtain ⟨r, h', h3, h4⟩ := hany.1 h2
      exact absurd h4 (hn r h' h3)
    · have h1' : d.tops = [] := Classical.byContradiction h1
      obtain ⟨m, he⟩ := addHandler_eq d rel h h1' h2
      rw [he]
      refine ⟨⟨fun hc => absurd (htops.2 hc) h1, fun _ => ⟨fun hc => absurd (hany.2 hc) h2, fun _ => rfl⟩⟩, ?_⟩
      constructor
      · intro t
        rw [TopLive_snoc, i.tops]
        simp
      · intro x hx; simp only [h1'] at hx; cases hx
      · exact i.topsPw
      · intro r h'
        rw [HasHandler_snoc, ← i.handlers]
        simp only [List.mem_append, List.mem_singleton, Prod.mk.injEq, Ev.addHandler.injEq, and_true]
        constructor
        · rintro (h | ⟨rfl, rfl⟩)
          · exact Or.inl h
          · exact Or.inr ⟨rfl, rfl⟩
        · rintro (h | ⟨rfl, rfl⟩)
          · exact Or.inl h
          · exact Or.inr ⟨rfl, rfl⟩
      · rw [List.pairwise_append]
        refine ⟨i.handlersPw, List.pairwise_singleton _ _, ?_⟩
        intro x hx y hy
        rw [List.mem_singleton.1 hy]
        intro ho
        exact h2 (hany.2 ⟨x.1, x.2, (i.handlers _ _).1 hx, ho⟩)
      · rw [requests_snoc]; simpa [reqOuts] using i.reqLen
      · rw [requests_snoc]
        intro k r hk
        obtain ⟨p0, g1, g2, g3⟩ := i.reqs k r hk
        exact ⟨p0, by simpa [reqOuts] using g1, List.mem_append_left _ g2, g3⟩
      · rw [handled_snoc]; simpa [runOuts] using i.runs
      · rw [storedBy_snoc]; simpa [storeOuts] using i.stored

/-! ### Interests -/

theorem prefix_cmp {a b c : List Comp} (h1 : a <+: c) (h2 : b <+: c) : Overlap a b := by
  rcases Nat.le_total a.length b.length with h | h
  · exact Or.inl (List.prefix_of_prefix_length_le h1 h2 h)
  · exact Or.inr (List.prefix_of_prefix_length_le h2 h1 h)

theorem mem_filtersFor (d : Disp) (name t rel : List Comp) (h : Handler) :
    (t, rel, h) ∈ d.filtersFor name ↔ ∃ fs, (t, fs) ∈ d.tops ∧ (rel, h) ∈ fs ∧ t ++ rel <+: name := by
  unfold Disp.filtersFor
  simp only [List.mem_flatMap, List.mem_map, List.mem_filter, decide_eq_true_eq, Prod.mk.injEq]
  constructor
  · rintro ⟨⟨t', fs⟩, h1, ⟨r', h'⟩, ⟨h2, h3⟩, rfl, rfl, rfl⟩
    exact ⟨fs, h1, h2, h3⟩
  · rintro ⟨fs, h1, h2, h3⟩
    exact ⟨(t, fs), h1, (rel, h), ⟨h2, h3⟩, rfl, rfl, rfl⟩

theorem filters_iff {l : Log} {d : Disp} (i : DispInv l d) (name t rel : List Comp) (h : Handler) :
    (t, rel, h) ∈ d.filtersFor name ↔ Responsible l t rel h name := by
  rw [mem_filtersFor]
  unfold Responsible
  rw [i.tops, ← i.handlers]
  constructor
  · rintro ⟨fs, h1, h2, h3⟩
    have := i.captured _ h1
    simp only at this
    subst this
    exact ⟨⟨_, h1⟩, h2, h3⟩
  · rintro ⟨⟨fs, h1⟩, h2, h3⟩
    have := i.captured _ h1
    simp only at this
    subst this
    exact ⟨_, h1, h2, h3⟩

/-- At most one filter matches. -/
theorem filters_one {l : Log} {d : Disp} (i : DispInv l d) (name : List Comp) : (d.filtersFor name).length ≤ 1 := by
  have inner : ∀ (t : List Comp) (fs : List (List Comp × Handler)), fs.Pairwise (fun x y => ¬ Overlap x.1 y.1) →
      (fs.filter fun x => decide (t ++ x.1 <+: name)).length ≤ 1 := by
    intro t fs hp
    have hp' := hp.filter (fun x => decide (t ++ x.1 <+: name))
    match hf : fs.filter (fun x => decide (t ++ x.1 <+: name)) with
    | [] => rw [hf]; simp
    | [_] => rw [hf]; simp
    | x :: y :: r =>
      exfalso
      rw [hf] at hp'
      have hx : x ∈ fs.filter (fun x => decide (t ++ x.1 <+: name)) := by rw [hf]; simp
      have hy : y ∈ fs.filter (fun x => decide (t ++ x.1 <+: name)) := by rw [hf]; simp
      have h1 := (List.mem_filter.1 hx).2
      have h2 := (List.mem_filter.1 hy).2
      simp only [decide_eq_true_eq] at h1 h2
      have hno := (List.pairwise_cons.1 hp').1 y (by simp)
      rcases prefix_cmp h1 h2 with h | h
      · exact hno (Or.inl ((List.prefix_append_right_inj t).1 h))
      · exact hno (Or.inr ((List.prefix_append_right_inj t).1 h))
  have hcap : ∀ x ∈ d.tops, x.2.Pairwise (fun x y => ¬ Overlap x.1 y.1) := by
    intro x hx; rw [i.captured x hx]; exact i.handlersPw
  have hpw := i.topsPw
  unfold Disp.filtersFor
  generalize d.tops = ts at hcap hpw
  induction ts with
  | nil => simp
  | cons t ts ih =>
    rw [List.flatMap_cons, List.length_append, List.length_map]
    have h1 := inner t.1 t.2 (hcap t (by simp))
    have h2 := ih (fun x hx => hcap x (List.mem_cons_of_mem _ hx)) hpw.of_cons
    by_cases h0 : (t.2.filter fun x => decide (t.1 ++ x.1 <+: name)) = []
    · rw [h0]; simpa using h2
    · have hz : (ts.flatMap fun t => (t.2.filter fun x => decide (t.1 ++ x.1 <+: name)).map fun x => (t.1, x.1, x.2)) = [] := by
        rw [List.flatMap_eq_nil_iff]
        intro u hu
        rw [List.map_eq_nil_iff, List.filter_eq_nil_iff]
        intro y hy hpre
        simp only [decide_eq_true_eq] at hpre
        obtain ⟨x, hx⟩ := List.exists_mem_of_ne_nil _ h0
        have hx2 := (List.mem_filter.1 hx).2
        simp only [decide_eq_true_eq] at hx2
        exact (List.pairwise_cons.1 hpw).1 u hu
          (prefix_cmp ((List.prefix_append _ _).trans hx2) ((List.prefix_append _ _).trans hpre))
      rw [hz]; simpa using h1

theorem inv_authorize {l : Log} {d : Disp} (i : DispInv l d) (e : Ev) (r : Req)
    (he : (∀ t, e ≠ .addTop t) ∧ (∀ t, e ≠ .removeTop t) ∧ ∀ r h, e ≠ .addHandler r h)
    (h1 : (r.rel, r.handler) ∈ d.handlers) (h2 : r.top ++ r.rel <+: r.name) (h3 : ParamsOk r.handler r.params r.params) :
    DispInv (l ++ [(e, (d.authorize r).1)]) (d.authorize r).2 := by
  simp only [Disp.authorize]
  refine inv_quiet i e _ { d with reqs := d.reqs ++ [r] } he rfl rfl (by simp [reqOuts]) ?_ (by simp [runOuts]) (by simp [storeOuts])
  intro k q hq
  simp only at hq
  by_cases hk : k < d.reqs.length
  · rw [List.getElem?_append_left hk] at hq
    exact requests_left i _ k q hq
  · rw [List.getElem?_append_right (by omega)] at hq
    have hk0 : k - d.reqs.length = 0 := by
      have := (List.getElem?_eq_some_iff.1 hq).1
      simp at this; omega
    rw [hk0] at hq
    simp only [List.getElem?_cons_zero, Option.some.injEq] at hq
    subst hq
    refine ⟨r.params, ?_, h1, h2, h3⟩
    rw [List.getElem?_append_right (by rw [← i.reqLen]; omega), ← i.reqLen, hk0]
    rfl

theorem quietEv_interest (name : List Comp) (hit : Option Nat) :
    (∀ t, Ev.interest name hit ≠ .addTop t) ∧ (∀ t, Ev.interest name hit ≠ .removeTop t) ∧
      ∀ r h, Ev.interest name hit ≠ .addHandler r h := by simp

theorem deliver_step {s : Settings} {l : Log} {d : Disp} (i : DispInv l d) (t rel : List Comp) (h : Handler)
    (name : List Comp) (hit : Option Nat) (hr : Responsible l t rel h name) :
    Served s l t rel h name hit (d.deliver s t rel h name hit).1 ∧
      DispInv (l ++ [(.interest name hit, (d.deliver s t rel h name hit).1)]) (d.deliver s t rel h name hit).2 := by
  have hq := quietEv_interest name hit
  obtain ⟨_, hh, hp⟩ := hr
  have hm := (i.handlers rel h).2 hh
  cases h with
  | command c =>
    simp only [Disp.deliver, parseRequest, Served]
    cases hn : name[t.length + 2]? with
    | none =>
      refine ⟨⟨(fun _ _ hc => by cases hc), fun _ => rfl⟩, inv_same_state i _ _ hq rfl rfl rfl⟩
    | some x =>
      simp only
      cases hx : (blockFromValue x.value).bind Params.decode with
      | none =>
        refine ⟨⟨?_, fun _ => rfl⟩, inv_same_state i _ _ hq rfl rfl rfl⟩
        rintro _ p hc hpp
        cases hc
        unfold paramsIn at hpp
        rw [hx] at hpp; cases hpp
      | some p =>
        refine ⟨⟨?_, ?_⟩, inv_authorize i _ _ hq hm hp ⟨p, p, rfl, rfl, Or.inl rfl⟩⟩
        · rintro _ p' hc hpp
          cases hc
          unfold paramsIn at hpp
          rw [hx] at hpp; cases hpp; rfl
        · intro hno
          exact absurd hx (hno x p rfl)
  | oldCommand v =>
    simp only [Disp.deliver, Served]
    cases hn : name[t.length + rel.length]? with
    | none =>
      simp only
      exact ⟨⟨fun _ => trivial, (fun _ hc => by cases hc)⟩, inv_same_state i _ _ hq rfl rfl rfl⟩
    | some x =>
      have hlen : t.length + rel.length < name.length := (List.getElem?_eq_some_iff.1 hn).1
      simp only
      cases hx : (blockFromValue x.value).bind Params.decode with
      | none =>
        refine ⟨⟨fun hl => absurd hl (by omega), ?_⟩, inv_same_state i _ _ hq rfl rfl rfl⟩
        rintro _ hc
        cases hc
        refine ⟨?_, fun _ => rfl⟩
        intro p hpp
        unfold paramsIn at hpp
        rw [hx] at hpp; cases hpp
      | some p =>
        refine ⟨⟨fun hl => absurd hl (by omega), ?_⟩, inv_authorize i _ _ hq hm hp ⟨p, p, rfl, rfl, .refl _⟩⟩
        rintro _ hc
        cases hc
        refine ⟨?_, ?_⟩
        · intro p' hpp
          unfold paramsIn at hpp
          rw [hx] at hpp; cases hpp; rfl
        · intro hpp
          unfold paramsIn at hpp
          rw [hx] at hpp; cases hpp
  | dataset =>
    simp only [Disp.deliver, Served]
    rw [i.stored]
    cases hb : hit.bind fun k => (storedBy l)[k]? with
    | some x =>
      simp only
      refine ⟨⟨?_, ?_⟩, inv_same_state i _ _ hq rfl rfl rfl⟩
      · rintro k x' rfl hk
        simp only [Option.bind_some] at hb
        rw [hb] at hk; cases hk; rfl
      · intro hno
        cases hit with
        | none => cases hb
        | some k => rw [Option.bind_some, hno k rfl] at hb; cases hb
    | none =>
      have h1 : ∀ k x, hit = some k → (storedBy l)[k]? ≠ some x := by
        rintro k x rfl hk
        rw [Option.bind_some, hk] at hb; cases hb
      cases he : endsInVersionOrSegment s name with
      | true =>
        simp only [if_true]
        refine ⟨⟨fun k x h2 h3 => absurd h3 (h1 k x h2), fun _ => ⟨fun _ => trivial, ?_⟩⟩, inv_same_state i _ _ hq rfl rfl rfl⟩
        intro hno
        unfold endsInVersionOrSegment at he
        cases hl : name.getLast? with
        | none => rw [hl] at he; cases he
        | some c =>
          rw [hl] at he
          simp only [(hno c hl).1, (hno c hl).2, Bool.or_self] at he
          cases he
      | false =>
        simp only [Bool.false_eq_true, if_false]
        refine ⟨⟨fun k x h2 h3 => absurd h3 (h1 k x h2), fun _ => ⟨?_, fun _ => rfl⟩⟩,
          inv_authorize i _ _ hq hm hp ⟨rfl, rfl⟩⟩
        rintro ⟨c, hl, hc⟩
        unfold endsInVersionOrSegment at he
        rw [hl] at he
        simp only [Bool.or_eq_false_iff] at he
        rw [he.1, he.2] at hc
        rcases hc with hc | hc <;> cases hc
  | stream =>
    simp only [Disp.deliver, Served]
    rw [i.stored]
    cases hb : hit.bind fun k => (storedBy l)[k]? with
    | some x =>
      simp only
      refine ⟨⟨?_, ?_⟩, inv_same_state i _ _ hq rfl rfl rfl⟩
      · rintro k x' rfl hk
        simp only [Option.bind_some] at hb
        rw [hb] at hk; cases hk; rfl
      · intro hno
        cases hit with
        | none => cases hb
        | some k => rw [Option.bind_some, hno k rfl] at hb; cases hb
    | none =>
      have h1 : ∀ k x, hit = some k → (storedBy l)[k]? ≠ some x := by
        rintro k x rfl hk
        rw [Option.bind_some, hk] at hb; cases hb
      exact ⟨⟨fun k x h2 h3 => absurd h3 (h1 k x h2), fun _ => rfl⟩, inv_same_state i _ _ hq rfl rfl rfl⟩

theorem interest_step {s : Settings} {l : Log} {d : Disp} (i : DispInv l d) (name : List Comp) (hit : Option Nat) :
    Expected s l (.interest name hit) (d.step s (.interest name hit)).1 ∧
      DispInv (l ++ [(.interest name hit, (d.step s (.interest name hit)).1)]) (d.step s (.interest name hit)).2 := by
  have h1 := filters_one i name
  have hm := filters_iff i name
  simp only [Disp.step, Expected]
  match hf : d.filtersFor name with
  | [] =>
    simp only [Disp.deliverAll]
    refine ⟨⟨?_, fun _ => trivial⟩, inv_same_state i _ _ (quietEv_interest _ _) rfl rfl rfl⟩
    intro t rel h hr
    have := (hm t rel h).2 hr
    rw [hf] at this; cases this
  | [(t, rel, h)] =>
    simp only [Disp.deliverAll, List.append_nil]
    have hr : Responsible l t rel h name := (hm t rel h).1 (by rw [hf]; simp)
    obtain ⟨g1, g2⟩ := deliver_step (s := s) i t rel h name hit hr
    refine ⟨⟨?_, fun hno => absurd hr (hno t rel h)⟩, g2⟩
    intro t' rel' h' hr'
    have := (hm t' rel' h').2 hr'
    rw [hf, List.mem_singleton] at this
    cases this
    exact g1
  | _ :: _ :: _ => rw [hf] at h1; simp at h1

/-! ### Continuations -/

theorem orSet_idem {α : Type} (o : Option α) (a b : α) : orSet (orSet o a) b = orSet o a := by
  cases o <;> rfl

theorem applyDefaults_idem (c : Command) (p : Params) : c.applyDefaults (c.applyDefaults p) = c.applyDefaults p := by
  cases c <;> simp only [Command.applyDefaults, orSet_idem]

theorem inv_set {l : Log} {d : Disp} (i : DispInv l d) (e : Ev) (k : Nat) (r : Req) (q : Params)
    (he : (∀ t, e ≠ .addTop t) ∧ (∀ t, e ≠ .removeTop t) ∧ ∀ r h, e ≠ .addHandler r h)
    (hr : d.reqs[k]? = some r)
    (hq : ∀ p0, ParamsOk r.handler p0 r.params → ParamsOk r.handler p0 (some q)) :
    DispInv (l ++ [(e, [.handle r.top r.name q])])
      { d with reqs := d.reqs.set k { r with params := some q }, runs := d.runs ++ [r.name] } := by
  refine inv_quiet i e _ _ he rfl rfl (by simp [reqOuts]) ?_ (by simp [runOuts]) (by simp [storeOuts])
  intro j x hx
  simp only at hx
  rw [List.getElem?_set] at hx
  by_cases hkj : k = j
  · subst hkj
    have hlt := (List.getElem?_eq_some_iff.1 hr).1
    rw [if_pos rfl, if_pos hlt] at hx
    cases hx
    obtain ⟨p0, h1, h2, h3, h4⟩ := requests_left i [.handle r.top r.name q] k r hr
    exact ⟨p0, h1, h2, h3, hq p0 h4⟩
  · rw [if_neg hkj] at hx
    exact requests_left i _ j x hx

theorem dataset_send (s : Settings) (name : List Comp) : ∀ (sent : List Sent),
    (∀ x ∈ sent, ∀ n b f, x = .data n b f → ∃ l k, n.getLast? = some l ∧ Conv.segment.to s l = some k) →
    Dataset s name sent (sent.flatMap (sendOne s name)) := by
  intro sent
  induction sent with
  | nil => intro _; rfl
  | cons x xs ih =>
    intro h
    have hr := ih (fun y hy => h y (List.mem_cons_of_mem _ hy))
    cases x with
    | nack code =>
      exact ⟨_, _, rfl, rfl, rfl, rfl, hr⟩
    | data n b f =>
      obtain ⟨l, k, h1, h2⟩ := h _ (by simp) n b f rfl
      refine ⟨{ name := n, content := .bytes b, final := if f then some l else none }, l, k, _, rfl, h1, h2, rfl, rfl, rfl, ?_, hr⟩
      rw [List.flatMap_cons]
      simp only [sendOne, h1, h2]

theorem storeOuts_append (a b : List Out) : storeOuts (a ++ b) = storeOuts a ++ storeOuts b := by
  unfold storeOuts; rw [List.filterMap_append]
theorem reqOuts_append (a b : List Out) : reqOuts (a ++ b) = reqOuts a ++ reqOuts b := by
  unfold reqOuts; rw [List.filterMap_append]
theorem runOuts_append (a b : List Out) : runOuts (a ++ b) = runOuts a ++ runOuts b := by
  unfold runOuts; rw [List.filterMap_append]

theorem sendOne_quiet (s : Settings) (name : List Comp) (x : Sent) :
    reqOuts (sendOne s name x) = [] ∧ runOuts (sendOne s name x) = [] := by
  cases x with
  | nack code => exact ⟨rfl, rfl⟩
  | data n b f =>
    unfold sendOne
    repeat' split
    all_goals exact ⟨rfl, rfl⟩

theorem sendAll_quiet (s : Settings) (name : List Comp) (xs : List Sent) :
    reqOuts (xs.flatMap (sendOne s name)) = [] ∧ runOuts (xs.flatMap (sendOne s name)) = [] := by
  induction xs with
  | nil => exact ⟨rfl, rfl⟩
  | cons x xs ih =>
    rw [List.flatMap_cons, reqOuts_append, runOuts_append, ih.1, ih.2, (sendOne_quiet s name x).1, (sendOne_quiet s name x).2]
    exact ⟨rfl, rfl⟩

/-- The decoding convention understands what the encoding convention writes. -/
def Consistent (s : Settings) : Prop := if s.encodeMarker then s.decodeMarker = true else s.decodeTyped = true

/-- Every packet a context sends has a name that ends in a segment number. -/
def Numbered (s : Settings) (c : Ctx) : Prop :=
  c.segmentNo < 2 ^ 64 ∧ ∀ x ∈ c.out, ∀ n b f, x = .data n b f → ∃ l k, n.getLast? = some l ∧ Conv.segment.to s l = some k

theorem segName_last {s : Settings} (hs : Consistent s) (p : List Comp) (n : Nat) (hn : n < 2 ^ 64) :
    ∃ l, (segName s p n).getLast? = some l ∧ Conv.segment.to s l = some n := by
  obtain ⟨c, h1, _, h3⟩ := C16_roundtrip s .segment n hn hs
  refine ⟨c, ?_, h3⟩
  unfold segName
  rw [h1]; simp

theorem numbered_flush {s : Settings} (hs : Consistent s) {c : Ctx} (h : Numbered s c) : Numbered s (c.flush s) := by
  unfold Ctx.flush
  split
  · refine ⟨Nat.mod_lt _ (by decide), ?_⟩
    intro x hx n b f he
    rcases List.mem_append.1 hx with hx | hx
    · exact h.2 x hx n b f he
    · rw [List.mem_singleton.1 hx] at he
      cases he
      obtain ⟨l, h1, h2⟩ := segName_last hs c.pfx c.segmentNo h.1
      exact ⟨l, _, h1, h2⟩
  · exact h

theorem numbered_loop {s : Settings} (hs : Consistent s) : ∀ (fuel : Nat) (c : Ctx) (b : Bytes), Numbered s c →
    Numbered s (Ctx.appendLoop s fuel c b) := by
  intro fuel
  induction fuel with
  | zero => intro c b h; exact h
  | succ n ih =>
    intro c b h
    unfold Ctx.appendLoop
    split
    · exact h
    · exact ih _ _ (numbered_flush hs h)

theorem numbered_step {s : Settings} (hs : Consistent s) {c : Ctx} (h : Numbered s c) (op : CtxOp) : Numbered s (c.step s op).2 := by
  cases op with
  | setPrefix p v =>
    simp only [Ctx.step, Ctx.setPrefix]
    repeat' split
    all_goals exact h
  | append b =>
    simp only [Ctx.step, Ctx.append]
    split
    · exact h
    · exact numbered_loop hs _ _ _ h
  | finish =>
    simp only [Ctx.step, Ctx.finish]
    split
    · exact h
    · refine ⟨h.1, ?_⟩
      intro x hx n b f he
      rcases List.mem_append.1 hx with hx | hx
      · exact h.2 x hx n b f he
      · rw [List.mem_singleton.1 hx] at he
        cases he
        obtain ⟨l, h1, h2⟩ := segName_last hs c.pfx c.segmentNo h.1
        exact ⟨l, _, h1, h2⟩
  | reject code =>
    simp only [Ctx.step, Ctx.reject]
    split
    · exact h
    · refine ⟨h.1, ?_⟩
      intro x hx n b f he
      rcases List.mem_append.1 hx with hx | hx
      · exact h.2 x hx n b f he
      · rw [List.mem_singleton.1 hx] at he; cases he

theorem numbered_run {s : Settings} (hs : Consistent s) : ∀ (ops : List CtxOp) (c : Ctx), Numbered s c →
    Numbered s (Ctx.run s ops c).2 := by
  intro ops
  induction ops with
  | nil => intro c h; exact h
  | cons op ops ih => intro c h; exact ih _ (numbered_step hs h op)

theorem numbered_make {s : Settings} {name : List Comp} {v : Nat} {c : Ctx} (h : Ctx.make s name v = some c) : Numbered s c := by
  have hi := (make_inv h).1
  have hf : ¬ (Appended [] ∨ Ended [] ∨ Rejected []) := by
    rintro (⟨_, h⟩ | h | ⟨_, h⟩) <;> cases h
  obtain ⟨_, h2, h3, _⟩ := hi.fresh (hi.initial.2 hf)
  refine ⟨by rw [h2]; decide, ?_⟩
  rw [h3]; intro x hx; cases hx

theorem accept_step {s : Settings} (hs : Consistent s) {l : Log} {d : Disp} (i : DispInv l d) (k : Nat) (calls : List CtxOp)
    (v : Nat) : Expected s l (.accept k calls v) (d.accept s k calls v).1 ∧
      DispInv (l ++ [(.accept k calls v, (d.accept s k calls v).1)]) (d.accept s k calls v).2 := by
  have he : (∀ t, Ev.accept k calls v ≠ .addTop t) ∧ (∀ t, Ev.accept k calls v ≠ .removeTop t) ∧
      ∀ r h, Ev.accept k calls v ≠ .addHandler r h := by simp
  simp only [Disp.accept, Expected]
  cases hr : d.reqs[k]? with
  | none =>
    simp only
    have hn : (requests l)[k]? = none := by
      rw [List.getElem?_eq_none_iff] at hr ⊢
      rw [← i.reqLen]; exact hr
    rw [hn]
    exact ⟨⟨(fun _ _ _ h => by cases h), fun _ => trivial⟩, inv_same_state i _ _ he rfl rfl rfl⟩
  | some r =>
    simp only
    obtain ⟨p0, h1, h2, h3, h4⟩ := i.reqs k r hr
    rw [h1]
    have hh := (i.handlers _ _).1 h2
    have close : ∀ os, Accepted s r.handler r.top r.name p0 calls v os →
        (∀ t name p, some (r.top, r.name, p0) = some (t, name, p) →
          ∃ rel h, HasHandler l rel h ∧ t ++ rel <+: name ∧ Accepted s h t name p calls v os) ∧
        (some (r.top, r.name, p0) = none → os = []) := by
      intro os ha
      refine ⟨?_, fun h => by cases h⟩
      rintro t name p hx
      cases hx
      exact ⟨r.rel, r.handler, hh, h3, ha⟩
    cases hk : r.handler with
    | command c =>
      rw [hk] at h4 close
      obtain ⟨a, b, rfl, hb, hab⟩ := h4
      rw [hb]
      simp only
      have hv : c.validateRequest b = .accept ↔ c.validateRequest a = .accept := by
        rcases hab with rfl | ⟨g1, rfl⟩
        · exact Iff.rfl
        · exact ⟨fun _ => g1, fun _ => C63_defaults_valid c a g1⟩
      have hd : c.applyDefaults b = c.applyDefaults a := by
        rcases hab with rfl | ⟨g1, rfl⟩
        · rfl
        · exact applyDefaults_idem c a
      by_cases hok : c.validateRequest b = .accept
      · rw [if_pos hok]
        refine ⟨close _ ⟨fun _ => by rw [hd], fun h => absurd (hv.1 hok) h⟩, ?_⟩
        rw [← hk]
        apply inv_set i _ k r _ he hr
        intro q0 hq0
        rw [hk] at hq0 ⊢
        obtain ⟨a', b', rfl, hb', hab'⟩ := hq0
        rw [hb] at hb'
        cases hb'
        refine ⟨a', _, rfl, rfl, Or.inr ?_⟩
        rcases hab' with rfl | ⟨g1, rfl⟩
        · exact ⟨hok, rfl⟩
        · exact ⟨g1, applyDefaults_idem c a'⟩
      · rw [if_neg hok]
        refine ⟨close _ ⟨fun h => absurd (hv.2 h) hok, fun _ => ⟨_, rfl, rfl, rfl, rfl, _, rfl⟩⟩, ?_⟩
        exact inv_same_state i _ _ he rfl rfl rfl
    | oldCommand w =>
      rw [hk] at h4 close
      obtain ⟨a, b, rfl, hb, hab⟩ := h4
      rw [hb]
      simp only
      cases hw : w b with
      | some q =>
        simp only
        refine ⟨close _ ⟨b, hab, ?_, ?_⟩, ?_⟩
        · intro r' hr'; rw [hw] at hr'; cases hr'; rfl
        · intro hn; rw [hw] at hn; cases hn
        · rw [← hk]
          apply inv_set i _ k r _ he hr
          intro q0 hq0
          rw [hk] at hq0 ⊢
          obtain ⟨a', b', rfl, hb', hab'⟩ := hq0
          rw [hb] at hb'
          cases hb'
          exact ⟨a', _, rfl, rfl, .step _ _ _ hab' hw⟩
      | none =>
        simp only
        refine ⟨close _ ⟨b, hab, ?_, ?_⟩, inv_same_state i _ _ he rfl rfl rfl⟩
        · intro r' hr'; rw [hw] at hr'; cases hr'
        · intro _; exact ⟨_, rfl, rfl, rfl, rfl, _, rfl⟩
    | dataset =>
      rw [hk] at h4 close
      obtain ⟨rfl, hb⟩ := h4
      rw [hb]
      simp only
      cases hm : Ctx.make s r.name v with
      | none =>
        simp only
        refine ⟨close _ ⟨?_, fun _ => rfl⟩, inv_same_state i _ _ he rfl rfl rfl⟩
        intro c hc; rw [hm] at hc; cases hc
      | some c =>
        simp only
        refine ⟨close _ ⟨?_, ?_⟩, ?_⟩
        · intro c' hc
          rw [hm] at hc; cases hc
          exact ⟨_, rfl, dataset_send s r.name _ (numbered_run hs calls c (numbered_make hm)).2⟩
        · intro hn; rw [hm] at hn; cases hn
        · obtain ⟨q1, q2⟩ := sendAll_quiet s r.name (Ctx.run s calls c).2.out
          refine inv_quiet i _ _ _ he rfl rfl ?_ ?_ ?_ ?_
          · rw [show ∀ os, reqOuts (Out.serve r.top r.name :: os) = reqOuts os from fun _ => rfl, q1]; rfl
          · intro j x hx
            exact requests_left i _ j x hx
          · rw [show ∀ os, runOuts (Out.serve r.top r.name :: os) = runOuts os from fun _ => rfl, q2]; simp
          · rw [show ∀ os, storeOuts (Out.serve r.top r.name :: os) = storeOuts os from fun _ => rfl, storesOf_eq]
    | stream =>
      rw [hk] at h4
      exact h4.elim

theorem reject_step {s : Settings} {l : Log} {d : Disp} (i : DispInv l d) (k : Nat) (b : Bool) :
    Expected s l (.reject k b) (d.reject k b).1 ∧ DispInv (l ++ [(.reject k b, (d.reject k b).1)]) (d.reject k b).2 := by
  have he : (∀ t, Ev.reject k b ≠ .addTop t) ∧ (∀ t, Ev.reject k b ≠ .removeTop t) ∧
      ∀ r h, Ev.reject k b ≠ .addHandler r h := by simp
  simp only [Disp.reject, Expected]
  cases hr : d.reqs[k]? with
  | none =>
    simp only
    have hn : (requests l)[k]? = none := by
      rw [List.getElem?_eq_none_iff] at hr ⊢
      rw [← i.reqLen]; exact hr
    rw [hn]
    exact ⟨⟨(fun _ _ _ h => by cases h), fun _ => trivial⟩, inv_same_state i _ _ he rfl rfl rfl⟩
  | some r =>
    simp only
    obtain ⟨p0, h1, h2, h3, h4⟩ := i.reqs k r hr
    rw [h1]
    cases b with
    | true =>
      simp only [if_true]
      refine ⟨⟨?_, (fun h => by cases h)⟩, inv_same_state i _ _ he rfl rfl rfl⟩
      rintro t name p hx
      cases hx
      exact ⟨fun _ => ⟨_, rfl, rfl, rfl, rfl, _, rfl⟩, fun h => by cases h⟩
    | false =>
      simp only [Bool.false_eq_true, if_false]
      refine ⟨⟨?_, (fun h => by cases h)⟩, inv_same_state i _ _ he rfl rfl rfl⟩
      rintro t name p hx
      exact ⟨(fun h => by cases h), fun _ => trivial⟩

theorem done_step {s : Settings} {l : Log} {d : Disp} (i : DispInv l d) (k : Nat) (x : Resp) :
    Expected s l (.done k x) (d.done k x).1 ∧ DispInv (l ++ [(.done k x, (d.done k x).1)]) (d.done k x).2 := by
  have he : (∀ t, Ev.done k x ≠ .addTop t) ∧ (∀ t, Ev.done k x ≠ .removeTop t) ∧
      ∀ r h, Ev.done k x ≠ .addHandler r h := by simp
  simp only [Disp.done, Expected, i.runs]
  cases hr : (handled l)[k]? with
  | none =>
    exact ⟨⟨(fun _ h => by cases h), fun _ => rfl⟩, inv_same_state i _ _ he rfl rfl rfl⟩
  | some name =>
    refine ⟨⟨?_, (fun h => by cases h)⟩, inv_same_state i _ _ he rfl rfl rfl⟩
    intro n hn
    cases hn
    exact ⟨_, rfl, rfl, rfl, rfl, rfl⟩

theorem seq_name (s : Settings) (p : List Comp) (n : Nat) :
    p ++ (Conv.sequence.from s n).toList = p ++ [Spec.convComp s.encodeMarker .sequence n] := by
  rw [Conv.from_eq]; rfl

theorem overlap_refl (x : List Comp) : Overlap x x := Or.inl (List.prefix_refl x)

theorem tops_single {l : Log} {d : Disp} (i : DispInv l d) {t : List Comp × List (List Comp × Handler)} (h : d.tops = [t]) :
    ∀ t', TopLive l t' ↔ t' = t.1 := by
  intro t'
  rw [i.tops, h]
  constructor
  · rintro ⟨fs, hf⟩
    rw [List.mem_singleton] at hf
    rw [← hf]
  · rintro rfl
    exact ⟨t.2, by simp⟩

theorem tops_many {l : Log} {d : Disp} (i : DispInv l d) {t u : List Comp × List (List Comp × Handler)}
    {r : List (List Comp × List (List Comp × Handler))} (h : d.tops = t :: u :: r) :
    TopLive l t.1 ∧ TopLive l u.1 ∧ t.1 ≠ u.1 := by
  have hp := i.topsPw
  rw [h] at hp
  refine ⟨(i.tops _).2 ⟨t.2, by rw [h]; simp⟩, (i.tops _).2 ⟨u.2, by rw [h]; simp⟩, ?_⟩
  intro he
  exact (List.pairwise_cons.1 hp).1 u (by simp) (he ▸ overlap_refl _)

theorem post_step {s : Settings} {l : Log} {d : Disp} (i : DispInv l d) (rel : List Comp) (b : Bytes) :
    Expected s l (.post rel b) (d.post s rel b).1 ∧ DispInv (l ++ [(.post rel b, (d.post s rel b).1)]) (d.post s rel b).2 := by
  have he : (∀ t, Ev.post rel b ≠ .addTop t) ∧ (∀ t, Ev.post rel b ≠ .removeTop t) ∧
      ∀ r h, Ev.post rel b ≠ .addHandler r h := by simp
  simp only [Disp.post, Expected]
  match ht : d.tops with
  | [] =>
    simp only
    have hn : ∀ t, ¬ TopLive l t := by
      intro t h
      obtain ⟨fs, hf⟩ := (i.tops t).1 h
      rw [ht] at hf; cases hf
    exact ⟨⟨fun t h => absurd h (hn t), fun _ => trivial, fun _ => trivial⟩, inv_same_state i _ _ he rfl rfl rfl⟩
  | [t] =>
    simp only
    have h1 := tops_single i ht
    refine ⟨⟨?_, ?_, ?_⟩, ?_⟩
    · intro t' h' _
      rw [h1] at h'
      subst h'
      exact ⟨_, _, rfl, seq_name s _ _, rfl, rfl, rfl⟩
    · intro hn; exact absurd ((h1 t.1).2 rfl) (hn _)
    · rintro ⟨a, c, ha, hc, hne⟩
      exact absurd (((h1 a).1 ha).trans ((h1 c).1 hc).symm) hne
    · refine inv_quiet i _ _ _ he ht.symm ?_ ?_ ?_ ?_ ?_
      all_goals simp only []
      · simp [reqOuts]
      · intro j x hx
        exact requests_left i _ j x hx
      · simp [runOuts]
      · simp [storeOuts]
  | t :: u :: r =>
    simp only
    obtain ⟨h1, h2, h3⟩ := tops_many i ht
    refine ⟨⟨?_, fun hn => absurd h1 (hn _), fun _ => trivial⟩, inv_same_state i _ _ he rfl rfl rfl⟩
    intro t' _ hu
    exact absurd ((hu _ h1).trans (hu _ h2).symm) h3

theorem disp_step {s : Settings} (hs : Consistent s) {l : Log} {d : Disp} (i : DispInv l d) (e : Ev) :
    Expected s l e (d.step s e).1 ∧ DispInv (l ++ [(e, (d.step s e).1)]) (d.step s e).2 := by
  cases e with
  | addTop p => exact addTop_step i p
  | removeTop p => exact removeTop_step i p
  | addHandler rel h => exact addHandler_step i rel h
  | interest name hit => exact interest_step i name hit
  | accept k calls v => exact accept_step hs i k calls v
  | reject k b => exact reject_step i k b
  | done k r => exact done_step i k r
  | post rel b => exact post_step i rel b

theorem disp_init : DispInv [] {} := by
  refine ⟨?_, (by intro x hx; cases hx), List.Pairwise.nil, ?_, List.Pairwise.nil, rfl, ?_, rfl, rfl⟩
  · intro t
    constructor
    · rintro ⟨a, b, h, _⟩
      have := congrArg List.length h
      simp at this
    · rintro ⟨fs, h⟩; cases h
  · intro rel h
    constructor
    · intro h; cases h
    · intro h; cases h
  · intro k r h; cases h

theorem disp_run {s : Settings} (hs : Consistent s) : ∀ (es : List Ev) (l : Log) (d : Disp), DispInv l d →
    DispInv (l ++ es.zip (Disp.run s es d).1) (Disp.run s es d).2 ∧ (Disp.run s es d).1.length = es.length ∧
    ∀ (k : Nat) e, es[k]? = some e → ∃ os, (Disp.run s es d).1[k]? = some os ∧
      Expected s (l ++ (es.zip (Disp.run s es d).1).take k) e os := by
  intro es
  induction es with
  | nil => intro l d i; simpa [Disp.run] using i
  | cons e es ih =>
    intro l d i
    obtain ⟨h1, h2⟩ := disp_step hs i e
    obtain ⟨g1, g2, g3⟩ := ih _ _ h2
    simp only [Disp.run, List.zip_cons_cons]
    refine ⟨by simpa using g1, by simpa using g2, ?_⟩
    intro k e' hk
    cases k with
    | zero =>
      simp only [List.getElem?_cons_zero, Option.some.injEq] at hk
      subst hk
      exact ⟨_, rfl, by simpa using h1⟩
    | succ k =>
      simp only [List.getElem?_cons_succ] at hk
      obtain ⟨os, q1, q2⟩ := g3 k e' hk
      exact ⟨os, q1, by simpa using q2⟩

end Ndn.Mgmt
