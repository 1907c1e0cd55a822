import Verif.Cert.CacheSpec
import Verif.Ims.FindLemmas
import Verif.Replay.Lemmas
/-
Lemmas on certificate caches.
-/
namespace Ndn.Cert
open Ndn.Name Ndn.Name.Spec CacheSpec
open Ndn.Ims (nameLt nameLt_iff prefix_contig not_lt_of_prefix lt_asymm)

def CSorted (l : List Entry) : Prop := l.Pairwise (fun x y => NameLt x.cert.name y.cert.name)

theorem mem_insertByName {e x : Entry} {l : List Entry} (h : x ∈ insertByName e l) : x = e ∨ x ∈ l := by
  induction l with
  | nil => simpa [insertByName] using h
  | cons y l ih =>
    unfold insertByName at h
    split at h
    · simpa using h
    · split at h
      · exact .inr h
      · rcases List.mem_cons.mp h with h | h
        · exact .inr (by simp [h])
        · rcases ih h with h | h
          · exact .inl h
          · exact .inr (by simp [h])

theorem mem_insertByName_old {e x : Entry} {l : List Entry} (h : x ∈ l) : x ∈ insertByName e l := by
  induction l with
  | nil => cases h
  | cons y l ih =>
    unfold insertByName
    split
    · exact List.mem_cons_of_mem _ h
    · split
      · exact h
      · rcases List.mem_cons.mp h with h | h
        · simp [h]
        · exact List.mem_cons_of_mem _ (ih h)

theorem mem_insertByName_new {e : Entry} {l : List Entry} (h : ∀ x ∈ l, x.cert.name ≠ e.cert.name) : e ∈ insertByName e l := by
  induction l with
  | nil => simp [insertByName]
  | cons y l ih =>
    unfold insertByName
    split
    · simp
    · rw [if_neg (fun he => h y (by simp) he.symm)]
      exact List.mem_cons_of_mem _ (ih (fun x hx => h x (by simp [hx])))

theorem insertByName_sorted {e : Entry} {l : List Entry} (h : CSorted l) : CSorted (insertByName e l) := by
  induction l with
  | nil => simp [insertByName, CSorted]
  | cons y l ih =>
    obtain ⟨h1, h2⟩ := List.pairwise_cons.mp h
    unfold insertByName
    split
    · rename_i hlt
      rw [nameLt_iff] at hlt
      refine List.pairwise_cons.mpr ⟨?_, h⟩
      intro z hz
      rcases List.mem_cons.mp hz with rfl | hz
      · exact hlt
      · exact NameLt_trans hlt (h1 z hz)
    · rename_i hlt
      split
      · exact h
      · rename_i hne
        refine List.pairwise_cons.mpr ⟨?_, ih h2⟩
        intro z hz
        rcases mem_insertByName hz with rfl | hz
        · rcases NameLt_total y.cert.name z.cert.name with h | h | h
          · exact h
          · exact absurd h.symm hne
          · exact absurd ((nameLt_iff _ _).2 h) hlt
        · exact h1 z hz

theorem name_inj {l : List Entry} (h : CSorted l) {x y : Entry} (hx : x ∈ l) (hy : y ∈ l) (e : x.cert.name = y.cert.name) : x = y := by
  induction l with
  | nil => cases hx
  | cons z l ih =>
    obtain ⟨h1, h2⟩ := List.pairwise_cons.mp h
    rcases List.mem_cons.mp hx with hx' | hx'
    · rcases List.mem_cons.mp hy with hy' | hy'
      · rw [hx', hy']
      · subst hx'; exact absurd (e ▸ h1 y hy') (NameLt_irrefl _)
    · rcases List.mem_cons.mp hy with hy' | hy'
      · subst hy'; exact absurd (e ▸ h1 x hx') (NameLt_irrefl _)
      · exact ih h2 hx' hy'

theorem lowerBound_ge {l : List Entry} (hs : CSorted l) (n : List Comp) : ∀ e ∈ lowerBound l n, ¬ NameLt e.cert.name n := by
  induction l with
  | nil => intro e he; cases he
  | cons x l ih =>
    obtain ⟨h1, h2⟩ := List.pairwise_cons.mp hs
    intro e he
    unfold lowerBound at he
    by_cases hx : nameLt x.cert.name n = true
    · rw [List.dropWhile_cons_of_pos (p := fun e : Entry => nameLt e.cert.name n) hx] at he
      exact ih h2 e he
    · rw [List.dropWhile_cons_of_neg (p := fun e : Entry => nameLt e.cert.name n) hx] at he
      rcases List.mem_cons.mp he with rfl | he
      · rw [← nameLt_iff]; exact hx
      · intro hlt
        exact hx ((nameLt_iff _ _).mpr (NameLt_trans (h1 e he) hlt))

theorem mem_lowerBound {l : List Entry} {n : List Comp} {e : Entry} (he : e ∈ l) (hp : n <+: e.cert.name) : e ∈ lowerBound l n := by
  have := List.takeWhile_append_dropWhile (p := fun e : Entry => nameLt e.cert.name n) (l := l)
  rw [← this] at he
  rcases List.mem_append.mp he with he | he
  · have := List.all_eq_true.mp (List.all_takeWhile (p := fun e : Entry => nameLt e.cert.name n) (l := l)) e he
    exact absurd ((nameLt_iff _ _).mp this) (not_lt_of_prefix hp)
  · exact he

theorem lowerBound_sublist (l : List Entry) (n : List Comp) : (lowerBound l n).Sublist l := List.dropWhile_sublist _

/-- The scan finds the first entry with the prefix that matches. -/
theorem scan_some {l : List Entry} {n : List Comp} {m : Crt → Bool} {c : Crt} (h : scan n m l = some c) :
    ∃ e ∈ l, e.cert = c ∧ n <+: c.name ∧ m c = true := by
  induction l with
  | nil => cases h
  | cons x l ih =>
    unfold scan at h
    split at h
    · rename_i hp
      split at h
      · rename_i hm
        simp only [Option.some.injEq] at h
        exact ⟨x, by simp, h, h ▸ List.isPrefixOf_iff_prefix.mp hp, h ▸ hm⟩
      · obtain ⟨e, he, h1⟩ := ih h
        exact ⟨e, by simp [he], h1⟩
    · cases h

theorem scan_first {l : List Entry} {n : List Comp} {m : Crt → Bool} (hs : CSorted l) (hge : ∀ e ∈ l, ¬ NameLt e.cert.name n)
    {e : Entry} (he : e ∈ l) (hp : n <+: e.cert.name) (hm : m e.cert = true) :
    ∃ c, scan n m l = some c ∧ ¬ NameLt e.cert.name c.name := by
  induction l with
  | nil => cases he
  | cons x l ih =>
    obtain ⟨h1, h2⟩ := List.pairwise_cons.mp hs
    have hxp : n <+: x.cert.name := by
      rcases List.mem_cons.mp he with rfl | he
      · exact hp
      · exact prefix_contig (hge x (by simp)) (lt_asymm (h1 e he)) hp
    unfold scan
    rw [if_pos (List.isPrefixOf_iff_prefix.mpr hxp)]
    by_cases hmx : m x.cert = true
    · rw [if_pos hmx]
      refine ⟨x.cert, rfl, ?_⟩
      rcases List.mem_cons.mp he with rfl | he
      · exact NameLt_irrefl _
      · exact lt_asymm (h1 e he)
    · rw [if_neg hmx]
      rcases List.mem_cons.mp he with rfl | he
      · exact absurd hm hmx
      · exact ih h2 (fun e he => hge e (by simp [he])) he

/-- `find(Name)` is the scan that accepts everything. -/
theorem find_eq_scan (s : Cache) (n : List Comp) : s.find n = s.findInterest n (fun _ => true) := by
  unfold Cache.find Cache.findInterest
  simp only
  cases lowerBound s.refresh.certs n with
  | nil => rfl
  | cons e es => simp [scan]

/-! ### Histories -/

theorem clock_append (t0 : Int) (a b : List COp) : clock t0 (a ++ b) = clock (clock t0 a) b := by
  induction a generalizing t0 with
  | nil => rfl
  | cons op a ih => cases op <;> simp [clock, ih]

theorem insert_now (life : Int) (s : Cache) (c : Crt) : (s.insert life c).now = s.now := by
  unfold Cache.insert
  split
  · rfl
  · split <;> rfl

theorem run_now (life t0 : Int) (ops : List COp) : ((Cache.init t0).run life ops).now = clock t0 ops := by
  unfold Cache.run
  have : ∀ (s : Cache), (ops.foldl (Cache.step life) s).now = clock s.now ops := by
    induction ops with
    | nil => intro s; rfl
    | cons op ops ih =>
      intro s
      rw [List.foldl_cons, ih]
      cases op with
      | insert c => simp [Cache.step, insert_now, clock]
      | clear => rfl
      | find n => rw [Cache.step, find_eq_scan]; rfl
      | findInterest n m => rfl
      | setClock t => rfl
  exact this _

theorem run_snoc (life : Int) (s : Cache) (ops : List COp) (op : COp) : s.run life (ops ++ [op]) = (s.run life ops).step life op := by
  simp [Cache.run, List.foldl_append]

/-- The effect of a look-up on the state. -/
theorem lookup_step {life : Int} {s : Cache} {op : COp} (h : isLookup op = true) : s.step life op = s.refresh := by
  cases op with
  | find n => rw [Cache.step, find_eq_scan]; rfl
  | findInterest n m => rfl
  | _ => cases h

theorem undisturbed_nil (t0 : Int) (a : List COp) (d : Int) : Undisturbed t0 a [] d :=
  ⟨by simp, by intro b1 q b2 h; cases b1 <;> cases h⟩

theorem undisturbed_snoc {t0 : Int} {a b : List COp} {d : Int} {op : COp} :
    Undisturbed t0 a (b ++ [op]) d ↔ Undisturbed t0 a b d ∧ op ≠ .clear ∧ (isLookup op = true → clock t0 (a ++ b) ≤ d) := by
  constructor
  · rintro ⟨h1, h2⟩
    refine ⟨⟨fun h => h1 (by simp [h]), ?_⟩, fun h => h1 (by simp [h]), h2 b op [] (by simp)⟩
    intro b1 q b2 hb hq
    exact h2 b1 q (b2 ++ [op]) (by simp [hb]) hq
  · rintro ⟨⟨h1, h2⟩, h3, h4⟩
    refine ⟨?_, ?_⟩
    · intro h
      rcases List.mem_append.mp h with h | h
      · exact h1 h
      · simp at h; exact h3 h.symm
    · intro b1 q b2 hb hq
      rcases List.eq_nil_or_concat b2 with rfl | ⟨b3, x, rfl⟩
      · have := List.append_inj' hb rfl
        obtain ⟨rfl, h5⟩ := this
        simp only [List.cons.injEq, and_true] at h5
        subst h5
        exact h4 hq
      · have hb' : b ++ [op] = (b1 ++ q :: b3) ++ [x] := by simpa using hb
        have := List.append_inj' hb' rfl
        exact h2 b1 q b3 this.1 hq

/-- What is stored was inserted, and nothing since has removed it. -/
theorem run_sound (life t0 : Int) (ops : List COp) :
    CSorted ((Cache.init t0).run life ops).certs ∧
    ∀ e ∈ ((Cache.init t0).run life ops).certs, Inserted t0 life ops e.cert e.removal := by
  induction ops using Replay.snocInd with
  | nil => exact ⟨List.Pairwise.nil, by intro e he; cases he⟩
  | snoc ops op ih =>
    obtain ⟨hs, hi⟩ := ih
    have hnow := run_now life t0 ops
    rw [run_snoc]
    generalize (Cache.init t0).run life ops = s at hs hi hnow
    have keep : ∀ e ∈ s.certs, op ≠ .clear → (isLookup op = true → clock t0 ops ≤ e.removal) →
        Inserted t0 life (ops ++ [op]) e.cert e.removal := by
      intro e he h1 h2
      obtain ⟨a, b, e1, e2, e3, e4⟩ := hi e he
      refine ⟨a, b ++ [op], by simp [e1], e2, e3, undisturbed_snoc.2 ⟨e4, h1, ?_⟩⟩
      intro hl
      have := h2 hl
      rw [e1] at this
      simpa using this
    by_cases hl : isLookup op = true
    · rw [lookup_step hl]
      refine ⟨hs.sublist List.filter_sublist, ?_⟩
      intro e he
      obtain ⟨he1, he2⟩ := List.mem_filter.mp he
      refine keep e he1 (by intro h; subst h; cases hl) (fun _ => ?_)
      simp only [Bool.not_eq_true', decide_eq_false_iff_not] at he2
      rw [← hnow]; omega
    · cases op with
      | clear => exact ⟨List.Pairwise.nil, by intro e he; cases he⟩
      | setClock t => exact ⟨hs, fun e he => keep e he (by simp) (by simp [isLookup])⟩
      | find n => exact absurd rfl hl
      | findInterest n m => exact absurd rfl hl
      | insert c =>
        show CSorted (s.insert life c).certs ∧ _
        unfold Cache.step Cache.insert
        by_cases h1 : c.notAfter < s.now
        · simp only [h1, if_true]
          exact ⟨hs, fun e he => keep e he (by simp) (by simp [isLookup])⟩
        · simp only [h1, if_false]
          by_cases h2 : int64 (s.now + life) = true
          · simp only [h2, if_true]
            refine ⟨insertByName_sorted hs, ?_⟩
            intro e he
            rcases mem_insertByName he with rfl | he
            · refine ⟨ops, [], by simp, by rw [← hnow]; simpa using h1, by rw [← hnow]; rfl, undisturbed_nil _ _ _⟩
            · exact keep e he (by simp) (by simp [isLookup])
          · simp only [h2]
            exact ⟨hs, fun e he => keep e he (by simp) (by simp [isLookup])⟩

/-- What is stored stays while nothing removes it. -/
theorem run_keeps (life t0 : Int) (a b : List COp) (e : Entry) (he : e ∈ ((Cache.init t0).run life a).certs)
    (hu : Undisturbed t0 a b e.removal) : e ∈ ((Cache.init t0).run life (a ++ b)).certs := by
  induction b using Replay.snocInd with
  | nil => simpa using he
  | snoc b op ih =>
    obtain ⟨h1, h2, h3⟩ := undisturbed_snoc.1 hu
    have hi := ih h1
    have hnow := run_now life t0 (a ++ b)
    rw [← List.append_assoc, run_snoc]
    generalize (Cache.init t0).run life (a ++ b) = s at hi hnow
    by_cases hl : isLookup op = true
    · rw [lookup_step hl]
      refine List.mem_filter.mpr ⟨hi, ?_⟩
      have := h3 hl
      rw [hnow]
      simpa using this
    · cases op with
      | clear => exact absurd rfl h2
      | setClock t => exact hi
      | find n => exact absurd rfl hl
      | findInterest n m => exact absurd rfl hl
      | insert c =>
        unfold Cache.step Cache.insert
        simp only
        split
        · exact hi
        · split
          · exact mem_insertByName_old hi
          · exact hi

theorem cached_mem {t0 life : Int} {ops : List COp} {c : Crt} {d : Int} (h : Cached t0 life ops c d) :
    (⟨c, d⟩ : Entry) ∈ ((Cache.init t0).run life ops).certs := by
  obtain ⟨a, b, rfl, h1, h2, h3, h4, h5⟩ := h
  have e : a ++ COp.insert c :: b = (a ++ [COp.insert c]) ++ b := by simp
  rw [e]
  refine run_keeps life t0 _ b ⟨c, d⟩ ?_ h5
  have hnow := run_now life t0 a
  have hs := run_sound life t0 a
  rw [run_snoc]
  generalize (Cache.init t0).run life a = s at hnow hs
  unfold Cache.step Cache.insert
  simp only
  rw [hnow, if_neg (by omega), if_pos h3]
  subst h2
  refine mem_insertByName_new (e := ⟨c, deadline life (clock t0 a) c⟩) ?_
  intro x hx he
  exact h4 _ _ he (hs.2 x hx)

end Ndn.Cert
