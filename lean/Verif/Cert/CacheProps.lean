import Verif.Cert.CacheLemmas
/-
C55: certificate caches.
-/
namespace Ndn.Cert
open Ndn.Name Ndn.Name.Spec CacheSpec

/-- C55, nothing stale: whatever the calls and the clock did before, a certificate returned by a look-up was
inserted, not cleared since, is not past the end of its validity period nor older in the cache than the
maximum lifetime, and has the prefix and satisfies the Interest asked for. -/
theorem C55_sound (t0 life : Int) (ops : List COp) (n : List Comp) (m : Crt → Bool) (c : Crt)
    (h : (((Cache.init t0).run life ops).findInterest n m).2 = some c) :
    n <+: c.name ∧ m c = true ∧
    ∃ a b, ops = a ++ COp.insert c :: b ∧ COp.clear ∉ b ∧ clock t0 ops ≤ c.notAfter ∧
      clock t0 ops ≤ clock t0 a + life := by
  obtain ⟨hs, hi⟩ := run_sound life t0 ops
  have hnow := run_now life t0 ops
  generalize (Cache.init t0).run life ops = s at *
  unfold Cache.findInterest at h
  obtain ⟨e, he, rfl, h1, h2⟩ := scan_some h
  refine ⟨h1, h2, ?_⟩
  obtain ⟨he1, he2⟩ := List.mem_filter.mp ((lowerBound_sublist _ _).subset he)
  obtain ⟨a, b, e1, _, e3, e4⟩ := hi e he1
  simp only [Bool.not_eq_true', decide_eq_false_iff_not] at he2
  unfold deadline at e3
  rw [hnow] at he2
  exact ⟨a, b, e1, e4.1, by omega, by omega⟩

/-- C55, nothing stale, for look-ups by prefix. -/
theorem C55_sound_prefix (t0 life : Int) (ops : List COp) (n : List Comp) (c : Crt)
    (h : (((Cache.init t0).run life ops).find n).2 = some c) :
    n <+: c.name ∧
    ∃ a b, ops = a ++ COp.insert c :: b ∧ COp.clear ∉ b ∧ clock t0 ops ≤ c.notAfter ∧
      clock t0 ops ≤ clock t0 a + life := by
  rw [find_eq_scan] at h
  have := C55_sound t0 life ops n _ c h
  exact ⟨this.1, this.2.2⟩

def ca : Crt := ⟨[⟨8, [1]⟩, ⟨8, [2]⟩], 100, 7⟩
def cb : Crt := ⟨[⟨8, [1]⟩, ⟨8, [3]⟩], 1000, 8⟩

/-- Cached, found, found again at its deadline, gone after it; the other one goes at the lifetime. -/
example : (((Cache.init 0).run 50 [.insert ca, .setClock 60, .insert cb]).find [⟨8, [1]⟩]).2 = some cb ∧
    (((Cache.init 0).run 50 [.insert ca, .setClock 50]).find [⟨8, [1]⟩]).2 = some ca ∧
    (((Cache.init 0).run 50 [.insert ca, .setClock 51]).find [⟨8, [1]⟩]).2 = none ∧
    (((Cache.init 60).run 50 [.insert ca, .setClock 101]).find [⟨8, [1]⟩]).2 = none := by decide

/-- C55, look-ups find: when a cached certificate within its deadline has the prefix and satisfies the
Interest, a certificate is returned, and its name is not after that of the cached one. -/
theorem C55_complete (t0 life : Int) (ops : List COp) (n : List Comp) (m : Crt → Bool) (c : Crt) (d : Int)
    (hc : Cached t0 life ops c d) (hd : clock t0 ops ≤ d) (hp : n <+: c.name) (hm : m c = true) :
    ∃ c', (((Cache.init t0).run life ops).findInterest n m).2 = some c' ∧ ¬ NameLt c.name c'.name := by
  have hmem := cached_mem hc
  have hs := (run_sound life t0 ops).1
  have hnow := run_now life t0 ops
  generalize (Cache.init t0).run life ops = s at *
  unfold Cache.findInterest
  have hr : CSorted s.refresh.certs := hs.sublist List.filter_sublist
  have hm1 : (⟨c, d⟩ : Entry) ∈ s.refresh.certs := by
    refine List.mem_filter.mpr ⟨hmem, ?_⟩
    rw [hnow]; simpa using hd
  exact scan_first (hr.sublist (lowerBound_sublist _ _)) (lowerBound_ge hr n) (mem_lowerBound hm1 hp) hp hm

/-- C55, look-ups by prefix find. -/
theorem C55_complete_prefix (t0 life : Int) (ops : List COp) (n : List Comp) (c : Crt) (d : Int)
    (hc : Cached t0 life ops c d) (hd : clock t0 ops ≤ d) (hp : n <+: c.name) :
    ∃ c', (((Cache.init t0).run life ops).find n).2 = some c' ∧ ¬ NameLt c.name c'.name := by
  rw [find_eq_scan]
  exact C55_complete t0 life ops n _ c d hc hd hp rfl

/-- C55, look-ups by full name return that certificate. -/
theorem C55_exact (t0 life : Int) (ops : List COp) (c : Crt) (d : Int)
    (hc : Cached t0 life ops c d) (hd : clock t0 ops ≤ d) :
    (((Cache.init t0).run life ops).find c.name).2 = some c := by
  obtain ⟨c', h1, h2⟩ := C55_complete_prefix t0 life ops c.name c d hc hd (List.prefix_refl _)
  have hmem := cached_mem hc
  have hs := (run_sound life t0 ops).1
  rw [h1]
  rw [find_eq_scan] at h1
  generalize (Cache.init t0).run life ops = s at *
  unfold Cache.findInterest at h1
  obtain ⟨e, he, rfl, h3, _⟩ := scan_some h1
  have he1 := (List.mem_filter.mp ((lowerBound_sublist _ _).subset he)).1
  have : e.cert.name = c.name := by
    rcases NameLt_total e.cert.name c.name with h | h | h
    · exact absurd h (Ims.not_lt_of_prefix h3)
    · exact h
    · exact absurd h h2
  have := name_inj hs he1 hmem this
  rw [this]

example : ∃ d, Cached 0 50 [COp.find [], COp.insert ca, COp.setClock 50, COp.find []] ca d ∧
    clock 0 [COp.find [], COp.insert ca, COp.setClock 50, COp.find []] ≤ d := by
  refine ⟨50, ⟨[COp.find []], [COp.setClock 50, COp.find []], rfl, by decide, by decide, by decide, ?_, by simp, ?_⟩, by decide⟩
  · rintro c' d' - ⟨a, b, h, -⟩
    have := congrArg (List.countP (fun o => match o with | COp.insert _ => true | _ => false)) h
    simp at this
  · intro b1 q b2 hb hq
    match b1, hb with
    | [], hb => simp at hb; rw [← hb.1] at hq; cases hq
    | [x], hb => simp at hb; rw [← hb.1]; decide
    | x :: y :: b1, hb =>
      simp at hb

/-- Full claim: a certificate inserted before the end of its validity period can be found from then on,
until it expires or the lifetime has passed. -/
def C55_inserted_claim : Prop :=
  ∀ (t0 life : Int) (ops : List COp) (c : Crt), 0 ≤ life → int64 (clock t0 ops + life) = true → clock t0 ops ≤ c.notAfter →
    ((((Cache.init t0).run life (ops ++ [.insert c])).find c.name).2).isSome

/-- The claim fails: when a certificate of the same name is still stored past its deadline, because nothing
has been looked up since, the insertion is ignored and the next look-up removes the old one. -/
theorem C55_inserted_counterexample : ¬ C55_inserted_claim := by
  intro h
  have := h 0 50 [.insert cb, .setClock 60] cb (by decide) (by decide) (by decide)
  revert this; decide

/-- Full claim: inserting a certificate again extends its stay. -/
def C55_extend_claim : Prop :=
  ∀ (t0 life : Int) (ops : List COp) (c : Crt) (t : Int), int64 (clock t0 ops + life) = true → clock t0 ops ≤ c.notAfter →
    t ≤ c.notAfter → t ≤ clock t0 ops + life →
    (((Cache.init t0).run life (ops ++ [.insert c, .setClock t])).find c.name).2 = some c

/-- The claim fails: a certificate already stored keeps its deadline. -/
theorem C55_extend_counterexample : ¬ C55_extend_claim := by
  intro h
  have := h 0 50 [.insert cb, .setClock 30, .find cb.name] cb 70 (by decide) (by decide) (by decide) (by decide)
  revert this; decide

/-- What holds for every certificate: one inserted in time is found, under its full name, until its deadline,
if no certificate of its name was inserted before, or all that were have been removed by look-ups after their
deadlines or by `clear`. -/
theorem C55_inserted_partial (t0 life : Int) (ops : List COp) (c : Crt) (hl : int64 (clock t0 ops + life) = true)
    (hn : clock t0 ops ≤ c.notAfter) (h : ∀ c' d', c'.name = c.name → ¬ Inserted t0 life ops c' d') (t : Int)
    (ht : t ≤ c.notAfter) (ht' : t ≤ clock t0 ops + life) :
    (((Cache.init t0).run life (ops ++ [.insert c, .setClock t])).find c.name).2 = some c := by
  refine C55_exact t0 life _ c (deadline life (clock t0 ops) c) ⟨ops, [.setClock t], by simp, hn, rfl, hl, h, by simp, ?_⟩ ?_
  · intro b1 q b2 hb hq
    match b1, hb with
    | [], hb => simp at hb; rw [← hb.1] at hq; cases hq
    | x :: b1, hb => simp at hb
  · rw [clock_append]
    simp only [clock]
    unfold deadline; omega

/-- A look-up after the deadline, or `clear`, makes room. -/
example : (((Cache.init 0).run 50 [.insert cb, .setClock 60, .find [], .insert cb]).find cb.name).2 = some cb ∧
    (((Cache.init 0).run 50 [.insert cb, .setClock 60, .clear, .insert cb]).find cb.name).2 = some cb := by decide

/-- Full claim: insertion is defined whatever the maximum lifetime. -/
def C55_defined_claim : Prop :=
  ∀ (t0 life : Int) (ops : List COp), int64 t0 = true → int64 life = true → ((Cache.init t0).run life ops).undefined = false

/-- The claim fails: with the longest lifetime (`time::nanoseconds::max()`) the deadline overflows. -/
theorem C55_defined_counterexample : ¬ C55_defined_claim := by
  intro h
  have := h 1 (2 ^ 63 - 1) [.insert ca] (by decide) (by decide)
  revert this; decide

end Ndn.Cert
