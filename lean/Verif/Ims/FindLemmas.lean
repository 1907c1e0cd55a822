import Verif.Ims.Lemmas
/-
Lemmas on searching in-memory storages.
-/
namespace Ndn.Ims
open Ndn.Name Ndn.Name.Spec Ndn.Interest Spec

abbrev Sorted (l : List Entry) : Prop := l.Pairwise (fun a b => nameLt a.pkt.full b.pkt.full = true)

theorem lt_asymm {a b : List Comp} (h : NameLt a b) : ¬ NameLt b a := fun h' => NameLt_irrefl _ (NameLt_trans h h')

/-- Not smaller than a name that is not smaller. -/
theorem lowerBound_ge {l : List Entry} (hs : Sorted l) (n : List Comp) :
    ∀ e ∈ l.dropWhile (fun e => nameLt e.pkt.full n), ¬ NameLt e.pkt.full n := by
  induction l with
  | nil => intro e he; cases he
  | cons x l ih =>
    obtain ⟨h1, h2⟩ := List.pairwise_cons.mp hs
    intro e he
    by_cases hx : nameLt x.pkt.full n = true
    · rw [List.dropWhile_cons_of_pos (p := fun e : Entry => nameLt e.pkt.full n) hx] at he
      exact ih h2 e he
    · rw [List.dropWhile_cons_of_neg (p := fun e : Entry => nameLt e.pkt.full n) hx] at he
      rcases List.mem_cons.mp he with rfl | he
      · rw [← nameLt_iff]; exact hx
      · intro hlt
        have := (nameLt_iff _ _).mp (h1 e he)
        exact hx ((nameLt_iff _ _).mpr (NameLt_trans this hlt))

theorem takeWhile_lt {l : List Entry} (n : List Comp) :
    ∀ e ∈ l.takeWhile (fun e => nameLt e.pkt.full n), NameLt e.pkt.full n := by
  intro e he
  have := List.all_eq_true.mp (List.all_takeWhile (p := fun e : Entry => nameLt e.pkt.full n) (l := l)) e he
  exact (nameLt_iff _ _).mp this

/-- Searching from the lower bound, when only packets with the prefix qualify. -/
theorem find_lowerBound {l : List Entry} (n : List Comp) (Q : Entry → Bool) (hQ : ∀ e ∈ l, Q e = true → n <+: e.pkt.full) :
    l.find? Q = (l.dropWhile (fun e => nameLt e.pkt.full n)).find? Q := by
  conv => lhs; rw [← List.takeWhile_append_dropWhile (p := fun e : Entry => nameLt e.pkt.full n) (l := l)]
  rw [List.find?_append]
  have : (l.takeWhile (fun e => nameLt e.pkt.full n)).find? Q = none := by
    rw [List.find?_eq_none]
    intro e he hq
    exact not_lt_of_prefix (hQ e ((List.takeWhile_prefix _).subset he) hq) (takeWhile_lt n e he)
  rw [this, Option.none_or]

/-- In a sorted list of names not smaller than `n`, nothing after a name without the prefix has it. -/
theorem none_after {x : Entry} {l : List Entry} {n : List Comp} (hs : Sorted (x :: l)) (hx : ¬ NameLt x.pkt.full n)
    (hn : ¬ n <+: x.pkt.full) : ∀ e ∈ l, ¬ n <+: e.pkt.full := by
  intro e he hp
  have := (nameLt_iff _ _).mp ((List.pairwise_cons.mp hs).1 e he)
  exact hn (prefix_contig hx (lt_asymm this) hp)

theorem findName_eq {s : St} (hi : Inv s) (n : List Comp) :
    (findName s n).2 = (s.cache.find? (fun e => n.isPrefixOf e.pkt.full)).map Entry.pkt := by
  rw [find_lowerBound n _ (fun e _ h => List.isPrefixOf_iff_prefix.mp h)]
  have hge := lowerBound_ge hi.sorted n
  have hs : Sorted (lowerBound s n) := hi.sorted.sublist (List.dropWhile_sublist _)
  unfold findName
  change ∀ e ∈ lowerBound s n, _ at hge
  show _ = ((lowerBound s n).find? _).map _
  cases hl : lowerBound s n with
  | nil => rfl
  | cons e t =>
    rw [hl] at hge hs
    by_cases hp : n.isPrefixOf e.pkt.full = true
    · simp only [hp, if_true]
      rw [List.find?_cons_of_pos (by simpa using hp)]
      rfl
    · simp only [hp, if_false]
      rw [List.find?_cons_of_neg (by simpa using hp)]
      have : t.find? (fun e => n.isPrefixOf e.pkt.full) = none := by
        rw [List.find?_eq_none]
        intro y hy hyp
        exact none_after hs (hge e (List.mem_cons_self ..)) (fun h => hp (List.isPrefixOf_iff_prefix.mpr h)) y hy
          (List.isPrefixOf_iff_prefix.mp hyp)
      rw [this]
      rfl

/-- What qualifies for an Interest. -/
def qual (f : IFields) (e : Entry) : Bool := (!f.mustBeFresh || e.fresh) && matchesEntry f e

theorem matchesEntry_iff {f : IFields} {e : Entry} (hd : e.pkt.digest.length = 32) :
    matchesEntry f e = true ↔ Matches f e.pkt := by
  obtain ⟨r, h1, h2⟩ := C30_match f e.pkt.name e.pkt.digest hd
  unfold matchesEntry Matches
  have : matchesData f e.pkt.name (some e.pkt.full) = some r := h1
  rw [this]
  simp only [Option.some.injEq, decide_eq_true_eq]
  exact h2

theorem matches_prefix {f : IFields} {p : Pkt} (h : Matches f p) : f.name <+: p.full := by
  have hp : p.name <+: p.full := List.prefix_append _ _
  rcases h with h | h | ⟨_, h | h⟩
  · rw [h]; exact hp
  · rw [h]; exact List.prefix_rfl
  · exact h.trans hp
  · exact h

theorem scan_eq {f : IFields} : ∀ {l : List Entry}, Sorted l → (∀ e ∈ l, ¬ NameLt e.pkt.full f.name) →
    (∀ e ∈ l, e.pkt.digest.length = 32) → scan f l = l.find? (qual f) := by
  intro l
  induction l with
  | nil => intros; rfl
  | cons x l ih =>
    intro hs hge hd
    have ih' := ih (List.pairwise_cons.mp hs).2 (fun e he => hge e (List.mem_cons_of_mem _ he))
      (fun e he => hd e (List.mem_cons_of_mem _ he))
    unfold scan
    by_cases h1 : (f.mustBeFresh && !x.fresh) = true
    · rw [if_pos h1, List.find?_cons_of_neg, ih']
      unfold qual
      simp only [Bool.and_eq_true, Bool.not_eq_true'] at h1
      simp [h1.1, h1.2]
    · rw [if_neg h1]
      by_cases h2 : f.name.isPrefixOf x.pkt.full = true
      · rw [if_pos h2]
        by_cases h3 : matchesEntry f x = true
        · rw [if_pos h3, List.find?_cons_of_pos]
          unfold qual
          simp only [Bool.and_eq_true, Bool.not_eq_true', not_and, Bool.not_eq_false] at h1
          rw [h3]
          cases hm : f.mustBeFresh
          · rfl
          · simp [h1 hm]
        · rw [if_neg h3, List.find?_cons_of_neg, ih']
          unfold qual
          simp [h3]
      · rw [if_neg h2]
        symm
        rw [List.find?_eq_none]
        have hnp : ¬ f.name <+: x.pkt.full := fun h => h2 (List.isPrefixOf_iff_prefix.mpr h)
        intro y hy hq
        have hm : Matches f y.pkt := by
          unfold qual at hq
          rw [Bool.and_eq_true] at hq
          exact (matchesEntry_iff (hd y hy)).mp hq.2
        rcases List.mem_cons.mp hy with rfl | hy
        · exact hnp (matches_prefix hm)
        · exact none_after hs (hge x (List.mem_cons_self ..)) hnp y hy (matches_prefix hm)

theorem selectChild_eq {f : IFields} {l : List Entry} (hs : Sorted l) (hge : ∀ e ∈ l.tail, ¬ NameLt e.pkt.full f.name)
    (hd : ∀ e ∈ l, e.pkt.digest.length = 32) : selectChild f l = l.find? (qual f) := by
  unfold selectChild
  have hfind : l.find? (qual f) = (if f.mustBeFresh then l.dropWhile (fun e => !e.fresh) else l).find? (qual f) := by
    split
    · rename_i hm
      conv => lhs; rw [← List.takeWhile_append_dropWhile (p := fun e : Entry => !e.fresh) (l := l)]
      rw [List.find?_append]
      have : (l.takeWhile (fun e => !e.fresh)).find? (qual f) = none := by
        rw [List.find?_eq_none]
        intro e he hq
        have := List.all_eq_true.mp (List.all_takeWhile (p := fun e : Entry => !e.fresh) (l := l)) e he
        unfold qual at hq
        simp only [Bool.not_eq_true'] at this
        simp [hm, this] at hq
      rw [this, Option.none_or]
    · rfl
  rw [hfind]
  have hsuf : (if f.mustBeFresh then l.dropWhile (fun e => !e.fresh) else l) <:+ l := by
    split
    · exact List.dropWhile_suffix _
    · exact List.suffix_refl _
  have hfresh : ∀ e t, (if f.mustBeFresh then l.dropWhile (fun e => !e.fresh) else l) = e :: t →
      (!f.mustBeFresh || e.fresh) = true := by
    intro e t h
    cases hm : f.mustBeFresh
    · rfl
    · rw [hm] at h
      simp only [if_true] at h
      have := List.head?_dropWhile_not (fun e : Entry => !e.fresh) l
      rw [h] at this
      simpa using this
  generalize (if f.mustBeFresh then l.dropWhile (fun e => !e.fresh) else l) = m at hsuf hfresh ⊢
  cases m with
  | nil => rfl
  | cons e t =>
    simp only
    have hf := hfresh e t rfl
    by_cases hm : matchesEntry f e = true
    · rw [if_pos hm, List.find?_cons_of_pos]
      unfold qual
      rw [hf, hm]; rfl
    · rw [if_neg hm, List.find?_cons_of_neg (by unfold qual; simp [hm])]
      have htail : ∀ y ∈ t, y ∈ l.tail := by
        obtain ⟨pre, hpre⟩ := hsuf
        intro y hy
        rw [← hpre]
        cases pre with
        | nil => simpa using hy
        | cons a pre => simp [hy]
      apply scan_eq
      · exact (List.pairwise_cons.mp (hs.sublist hsuf.sublist)).2
      · exact fun y hy => hge y (htail y hy)
      · exact fun y hy => hd y (List.mem_of_mem_tail (htail y hy))

theorem findInterest_eq {s : St} (hi : Inv s) (f : IFields) (hne : ∀ e ∈ s.cache, e.pkt.full ≠ f.name) :
    (findInterest s f).2 = (s.cache.find? (qual f)).map Entry.pkt := by
  have hnone : s.cache.find? (fun e => decide (e.pkt.full = f.name)) = none := by
    rw [List.find?_eq_none]
    intro e he h
    exact hne e he (of_decide_eq_true h)
  have hQ : ∀ e ∈ s.cache, qual f e = true → f.name <+: e.pkt.full := by
    intro e he hq
    unfold qual at hq
    rw [Bool.and_eq_true] at hq
    exact matches_prefix ((matchesEntry_iff (hi.digests e he)).mp hq.2)
  unfold findInterest
  rw [hnone]
  simp only
  have hge := lowerBound_ge hi.sorted f.name
  change ∀ e ∈ lowerBound s f.name, _ at hge
  have hlbf : s.cache.find? (qual f) = (lowerBound s f.name).find? (qual f) := find_lowerBound f.name _ hQ
  cases hl : lowerBound s f.name with
  | nil =>
    rw [hl] at hlbf
    simp only
    rw [hlbf]; rfl
  | cons e t =>
    simp only
    rw [hl] at hge hlbf
    have hsplit := List.takeWhile_append_dropWhile (p := fun e : Entry => nameLt e.pkt.full f.name) (l := s.cache)
    have hstart : ∃ m, startFrom (s.cache.takeWhile (fun e => nameLt e.pkt.full f.name)) (e :: t) = m ∧ m <:+ s.cache ∧ (∀ y ∈ m.tail, ¬ NameLt y.pkt.full f.name) ∧
          m.find? (qual f) = s.cache.find? (qual f) := by
      have hsuf : (e :: t) <:+ s.cache := by rw [← hl]; exact List.dropWhile_suffix _
      rcases List.eq_nil_or_concat (s.cache.takeWhile (fun e => nameLt e.pkt.full f.name)) with h0 | ⟨pre, p, hp⟩
      · rw [h0]
        exact ⟨e :: t, rfl, hsuf, fun y hy => hge y (List.mem_of_mem_tail hy), hlbf.symm⟩
      · have hp' : s.cache.takeWhile (fun e => nameLt e.pkt.full f.name) = pre ++ [p] := by rw [hp]; simp
        rw [hp']
        simp only [startFrom, List.getLast?_append, List.getLast?_singleton, Option.some_or]
        have hlt : NameLt p.pkt.full f.name := takeWhile_lt (l := s.cache) f.name p (by rw [hp']; simp)
        have hcache : s.cache = pre ++ (p :: e :: t) := by
          rw [← hsplit, hp']
          show pre ++ [p] ++ lowerBound s f.name = _
          rw [hl]; simp
        refine ⟨p :: e :: t, rfl, ⟨pre, hcache.symm⟩, fun y hy => hge y hy, ?_⟩
        rw [hlbf, List.find?_cons_of_neg]
        intro hq
        exact not_lt_of_prefix (hQ p (by rw [hcache]; simp) hq) hlt
    obtain ⟨m, hm, hsuf, htail, hfind⟩ := hstart
    rw [hm, ← hfind]
    have := selectChild_eq (f := f) (l := m) (hi.sorted.sublist hsuf.sublist) htail (fun y hy => hi.digests y (hsuf.subset hy))
    rw [this]
    cases m.find? (qual f) <;> rfl

/-- The first entry that qualifies, in a sorted cache. -/
theorem find_first {s : St} (hi : Inv s) (Q : Entry → Bool) (e : Entry) :
    s.cache.find? Q = some e ↔ e ∈ s.cache ∧ Q e = true ∧ ∀ e' ∈ s.cache, Q e' = true → e' ≠ e → NameLt e.pkt.full e'.pkt.full := by
  constructor
  · intro h
    obtain ⟨hq, pre, suf, hc, hpre⟩ := List.find?_eq_some_iff_append.mp h
    refine ⟨List.mem_of_find?_eq_some h, hq, ?_⟩
    intro e' he' hq' hne
    rw [hc] at he'
    rcases List.mem_append.mp he' with h1 | h1
    · have := hpre e' h1
      rw [hq'] at this
      simp at this
    · rcases List.mem_cons.mp h1 with h2 | h2
      · exact absurd h2 hne
      · have hs := hi.sorted
        rw [hc] at hs
        have := (List.pairwise_cons.mp (List.pairwise_append.mp hs).2.1).1 e' h2
        exact (nameLt_iff _ _).mp this
  · rintro ⟨he, hq, hmin⟩
    cases hf : s.cache.find? Q with
    | none =>
      rw [List.find?_eq_none] at hf
      exact absurd hq (hf e he)
    | some e' =>
      obtain ⟨hq', pre, suf, hc, hpre⟩ := List.find?_eq_some_iff_append.mp hf
      by_cases h : e' = e
      · rw [h]
      · exfalso
        have h1 := hmin e' (List.mem_of_find?_eq_some hf) hq' h
        have h2 : e ∈ s.cache := he
        rw [hc] at h2
        rcases List.mem_append.mp h2 with h3 | h3
        · have := hpre e h3
          rw [hq] at this
          simp at this
        · rcases List.mem_cons.mp h3 with h4 | h4
          · exact h h4.symm
          · have hs := hi.sorted
            rw [hc] at hs
            have := (List.pairwise_cons.mp (List.pairwise_append.mp hs).2.1).1 e h4
            exact lt_asymm h1 ((nameLt_iff _ _).mp this)

theorem pkt_inj {s : St} (hi : Inv s) {a b : Entry} (ha : a ∈ s.cache) (hb : b ∈ s.cache) (h : a.pkt = b.pkt) : a = b :=
  hi.fullInj ha hb (by rw [h])

theorem find_First {s : St} (hi : Inv s) (Q : Entry → Bool) (R : Pkt → Prop) (hQR : ∀ e ∈ s.cache, (Q e = true ↔ R e.pkt)) (p : Pkt) :
    (s.cache.find? Q).map Entry.pkt = some p ↔ First s R p := by
  rw [Option.map_eq_some_iff]
  constructor
  · rintro ⟨e, he, rfl⟩
    obtain ⟨h1, h2, h3⟩ := (find_first hi Q e).mp he
    refine ⟨⟨e, h1, rfl⟩, (hQR e h1).mp h2, ?_⟩
    rintro q ⟨e', he', rfl⟩ hq hne
    exact h3 e' he' ((hQR e' he').mpr hq) (fun h => hne (by rw [h]))
  · rintro ⟨⟨e, he, rfl⟩, h2, h3⟩
    refine ⟨e, (find_first hi Q e).mpr ⟨he, (hQR e he).mpr h2, ?_⟩, rfl⟩
    intro e' he' hq hne
    exact h3 e'.pkt ⟨e', he', rfl⟩ ((hQR e' he').mp hq) (fun h => hne (pkt_inj hi he' he h))

theorem find_None {s : St} (Q : Entry → Bool) (R : Pkt → Prop) (hQR : ∀ e ∈ s.cache, (Q e = true ↔ R e.pkt)) :
    (s.cache.find? Q).map Entry.pkt = none ↔ ∀ p, Stored s p → ¬ R p := by
  rw [Option.map_eq_none_iff, List.find?_eq_none]
  constructor
  · rintro h p ⟨e, he, rfl⟩ hr
    exact h e he ((hQR e he).mpr hr)
  · intro h e he hq
    exact h e.pkt ⟨e, he, rfl⟩ ((hQR e he).mp hq)

/-! ### Erased entries -/

theorem prefix_full_iff {n : List Comp} {p : Pkt} (h : p.full ≠ n) : n <+: p.full ↔ n <+: p.name := by
  constructor
  · rintro ⟨t, ht⟩
    rcases List.eq_nil_or_concat t with rfl | ⟨pre, c, rfl⟩
    · rw [List.append_nil] at ht
      exact absurd ht.symm h
    · unfold Pkt.full at ht
      have hx : n ++ (pre ++ [c]) = p.name ++ [⟨1, p.digest⟩] := by simpa using ht
      rw [← List.append_assoc] at hx
      have := List.append_inj_left' hx rfl
      exact ⟨pre, this⟩
  · intro h'
    exact h'.trans (List.prefix_append _ _)

/-- The entries the loop of `erase` removes. -/
theorem erased_mem {s : St} (hi : Inv s) {n : List Comp} (hn : ∀ e ∈ s.cache, e.pkt.full ≠ n) (e : Entry) (he : e ∈ s.cache) :
    e ∈ (lowerBound s n).takeWhile (fun e => n.isPrefixOf e.pkt.name) ↔ n <+: e.pkt.name := by
  constructor
  · intro h
    have := List.all_eq_true.mp (List.all_takeWhile (p := fun e : Entry => n.isPrefixOf e.pkt.name) (l := lowerBound s n)) e h
    exact List.isPrefixOf_iff_prefix.mp this
  · intro hp
    have hfull : n <+: e.pkt.full := (prefix_full_iff (hn e he)).mpr hp
    have hlb : e ∈ lowerBound s n := by
      have hsplit := List.takeWhile_append_dropWhile (p := fun e : Entry => nameLt e.pkt.full n) (l := s.cache)
      rw [← hsplit] at he
      rcases List.mem_append.mp he with h | h
      · exact absurd (takeWhile_lt n e h) (not_lt_of_prefix hfull)
      · exact h
    have hs : Sorted (lowerBound s n) := hi.sorted.sublist (List.dropWhile_sublist _)
    have hge := lowerBound_ge hi.sorted n
    change ∀ e ∈ lowerBound s n, _ at hge
    have hcache : ∀ x ∈ lowerBound s n, x ∈ s.cache := fun x hx => mem_lowerBound hx
    generalize lowerBound s n = l at hlb hs hge hcache
    induction l with
    | nil => cases hlb
    | cons x l ih =>
      by_cases hx : n.isPrefixOf x.pkt.name = true
      · rw [List.takeWhile_cons_of_pos (p := fun e : Entry => n.isPrefixOf e.pkt.name) hx]
        rcases List.mem_cons.mp hlb with rfl | hlb
        · exact List.mem_cons_self ..
        · exact List.mem_cons_of_mem _ (ih hlb (List.pairwise_cons.mp hs).2 (fun y hy => hge y (List.mem_cons_of_mem _ hy))
            (fun y hy => hcache y (List.mem_cons_of_mem _ hy)))
      · exfalso
        have hnx : ¬ n <+: x.pkt.full := by
          rw [prefix_full_iff (hn x (hcache x (List.mem_cons_self ..)))]
          exact fun h => hx (List.isPrefixOf_iff_prefix.mpr h)
        rcases List.mem_cons.mp hlb with rfl | hlb
        · exact hnx hfull
        · exact none_after hs (hge x (List.mem_cons_self ..)) hnx e hlb hfull

/-! ### What operations leave unchanged -/

theorem afterAccess_frame (s : St) (id : Nat) : (afterAccess s id).cache = s.cache ∧ (afterAccess s id).hasSched = s.hasSched ∧
    (afterAccess s id).log = s.log := by
  unfold afterAccess
  cases hp : s.policy <;> simp only [hp]
  · exact ⟨trivial, trivial, trivial⟩
  · unfold afterInsert beforeErase; simp [hp]
  · cases bump id s.cleanup <;> simp
  · exact ⟨trivial, trivial, trivial⟩

theorem mem_start {s : St} {n : List Comp} {e : Entry}
    (h : e ∈ startFrom (s.cache.takeWhile (fun e => nameLt e.pkt.full n)) (lowerBound s n)) : e ∈ s.cache := by
  unfold startFrom at h
  split at h
  · rename_i p hp
    rcases List.mem_cons.mp h with rfl | h
    · exact (List.takeWhile_prefix _).subset (List.mem_of_getLast? hp)
    · exact mem_lowerBound h
  · exact mem_lowerBound h

theorem findName_cache (s : St) (n : List Comp) : (findName s n).1.cache = s.cache := by
  unfold findName
  split
  · rfl
  · split
    · exact (afterAccess_frame s _).1
    · rfl

theorem findInterest_cache (s : St) (f : IFields) : (findInterest s f).1.cache = s.cache := by
  unfold findInterest
  split
  · rfl
  · split
    · rfl
    · simp only
      split
      · rfl
      · exact (afterAccess_frame s _).1

theorem evictItem_hasSched (s : St) : (evictItem s).2.hasSched = s.hasSched := by
  unfold evictItem
  split
  · rfl
  · rfl
  · split
    · rfl
    · unfold eraseImpl
      split <;> rfl

theorem evictLoop_hasSched (c fuel : Nat) : ∀ s : St, (evictLoop c fuel s).2.hasSched = s.hasSched := by
  induction fuel with
  | zero => intro s; rfl
  | succ n ih =>
    intro s
    unfold evictLoop
    split
    · simp only
      split
      · rw [ih, evictItem_hasSched]
      · exact evictItem_hasSched s
    · rfl

theorem setCapacity_hasSched (s : St) (c : Nat) : (setCapacity s c).hasSched = s.hasSched := by
  unfold setCapacity
  have := evictLoop_hasSched (max c minCapacity) s.nPackets { s with capacity := max c minCapacity }
  simp only
  split
  · exact this
  · split <;> exact this

theorem makeRoom_hasSched (s : St) : (makeRoom s).hasSched = s.hasSched := by
  unfold makeRoom
  simp only
  split <;> split
  · rw [evictItem_hasSched, setCapacity_hasSched]
  · rw [setCapacity_hasSched]
  · rw [evictItem_hasSched]
  · rfl

theorem afterInsert_hasSched (s : St) (i : Nat) : (afterInsert s i).hasSched = s.hasSched := by
  unfold afterInsert
  cases hp : s.policy <;> simp

theorem shrink_hasSched (s : St) : (shrink s).hasSched = s.hasSched := by
  unfold shrink
  split
  · exact setCapacity_hasSched _ _
  · rfl

theorem eraseFold_hasSched (l : List Entry) : ∀ s : St, (l.foldl eraseEntry s).hasSched = s.hasSched := by
  induction l with
  | nil => intro s; rfl
  | cons e l ih => intro s; rw [List.foldl_cons, ih]; rfl

theorem step_hasSched (s : St) (op : Op) : (step s op).hasSched = s.hasSched := by
  cases op with
  | insert p w =>
    show (insert s p w).hasSched = _
    unfold insert
    split
    · rfl
    · unfold store
      split
      · exact makeRoom_hasSched s
      · simp only
        rw [afterInsert_hasSched]
        split <;> exact makeRoom_hasSched s
  | findName n =>
    show (findName s n).1.hasSched = _
    unfold findName
    split
    · rfl
    · split
      · exact (afterAccess_frame s _).2.1
      · rfl
  | findInterest f =>
    show (findInterest s f).1.hasSched = _
    unfold findInterest
    split
    · rfl
    · split
      · rfl
      · simp only
        split
        · rfl
        · exact (afterAccess_frame s _).2.1
  | erase n b =>
    show (erase s n b).hasSched = _
    unfold erase
    split
    · rw [shrink_hasSched, eraseFold_hasSched]
    · split
      · rfl
      · rw [shrink_hasSched]; rfl
  | advance dt => rfl
  | fire ev =>
    show (fire s ev).hasSched = _
    unfold fire
    split
    · rfl
    · split <;> rfl

theorem makeRoom_cache {s : St} (hi : Inv s) (h : s.nPackets < s.limit) : (makeRoom s).cache = s.cache := by
  have h1 := hi.n
  have h2 := hi.cap
  have h3 := hi.lim
  unfold makeRoom
  by_cases hf : isFull s = true
  · have hf' : s.capacity ≤ s.nPackets := by simpa [isFull] using hf
    have hne : ¬ s.limit = s.capacity := by omega
    simp only [hf, hne, not_false_eq_true, and_self, if_true, and_false, if_false]
    exact (setCapacity_same (by simp only [minCapacity]; omega)).1
  · simp [hf]

end Ndn.Ims
