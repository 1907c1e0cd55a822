import Verif.Ims.FindLemmas
/-
Properties of in-memory storages: C42 to C46, C78.
-/
namespace Ndn.Ims
open Ndn.Name Ndn.Name.Spec Ndn.Interest Spec

/-! ### Sample packets -/

def comp (c : UInt8) : Comp := ⟨8, [c]⟩
def dig (c : UInt8) : Bytes := List.replicate 32 c
def pkt (n : List UInt8) (d : UInt8) : Pkt := ⟨n.map comp, dig d⟩

def want (n : List Comp) (fresh : Bool) : IFields := ⟨n, true, fresh, [], none, 4000, none, []⟩

/-- A history with growth, timers, uses and erasures. -/
def sampleOps : List Op :=
  (List.range 18).map (fun i => Op.insert (pkt [1, UInt8.ofNat i] 0) 10) ++
    [.advance 10, .fire 3, .findName [comp 1, comp 2], .insert (pkt [2] 0) 5, .erase [comp 2] true, .findInterest (want [comp 1] true)]

theorem sampleOps_valid : ValidOps sampleOps := by
  intro p w h
  unfold sampleOps at h
  rcases List.mem_append.mp h with h | h
  · obtain ⟨i, _, hi⟩ := List.mem_map.mp h
    cases hi
    exact List.length_replicate
  · simp only [List.mem_cons, Op.insert.injEq, reduceCtorEq, false_or, List.not_mem_nil, or_false] at h
    rw [h.1]
    decide

theorem sample_reach (pol : Policy) : Reach pol 30 true (run (init pol 30 true) sampleOps) :=
  ⟨by decide, sampleOps, sampleOps_valid, fun h => absurd h (by decide), fun _ => by decide, rfl⟩

example : (run (init .lru 30 true) sampleOps).nPackets = 18 ∧ (run (init .lru 30 true) sampleOps).capacity = 30 := by decide +kernel

/-! ### C42: capacity -/

/-- The number of stored packets is the size reported, never more than the capacity, which is never
more than the limit; pool and packets together make up the capacity; no operation took an entry from
an empty pool (or freed one from it). Missing: limits below 16 with `erase`, and limit 0 - see the
witnesses below. -/
theorem C42_bound_partial {policy : Policy} {limit : Nat} {hasSched : Bool} {s : St} (h : Reach policy limit hasSched s) :
    s.nPackets = s.cache.length ∧ s.nPackets ≤ s.capacity ∧ s.capacity ≤ limit ∧
    s.nPackets + s.free.length = s.capacity ∧ s.ub = false := by
  obtain ⟨T, _, hi, _, _, hl, _⟩ := reach_good h
  have h1 := hi.n
  have h2 := hi.cap
  have h3 := hi.lim
  exact ⟨h1, by omega, by omega, by omega, hi.ub⟩

example : (run (init .fifo 30 true) sampleOps).nPackets ≤ 30 := by
  have := C42_bound_partial (sample_reach .fifo)
  omega

/-- The full claim: any limit, any calls. -/
def C42_claim : Prop :=
  ∀ (policy : Policy) (limit : Nat) (hasSched : Bool) (ops : List Op), ValidOps ops → policy ≠ .persistent →
    let s := run (init policy limit hasSched) ops
    s.nPackets ≤ s.capacity ∧ s.capacity ≤ limit ∧ s.ub = false

/-- With limit 1: after insert and erase the capacity is 16. -/
theorem C42_small_limit_counterexample : ¬ C42_claim := by
  intro h
  have := (h .fifo 1 false [.insert (pkt [1] 0) (-1), .erase [comp 1] true] (by
    intro p w hm
    simp only [List.mem_cons, Op.insert.injEq, reduceCtorEq, List.not_mem_nil, or_false] at hm
    rw [hm.1]; decide) (by decide)).2.1
  revert this
  decide +kernel

/-- … so that more packets than the limit are stored, and once these 16 entries are used, the next
insert takes an entry from an empty pool; with limit 0 the first one does. -/
theorem C42_small_limit_overflow :
    (run (init .fifo 1 false) [.insert (pkt [1] 0) (-1), .erase [comp 1] true, .insert (pkt [1] 0) (-1), .insert (pkt [2] 0) (-1)]).nPackets = 2 ∧
    (run (init .fifo 0 false) [.insert (pkt [1] 0) (-1)]).ub = true := by decide +kernel

/-! ### C43: finding -/

/-- `find(Name)` returns the first packet in canonical order whose full name has the prefix, and
nothing only if there is none. -/
theorem C43_findName {policy : Policy} {limit : Nat} {hasSched : Bool} {s : St} (h : Reach policy limit hasSched s) (n : List Comp) :
    (∀ p, (findName s n).2 = some p ↔ First s (fun q => n <+: q.full) p) ∧
    ((findName s n).2 = none ↔ ∀ p, Stored s p → ¬ n <+: p.full) := by
  obtain ⟨T, _, hi, _, _, _, _⟩ := reach_good h
  rw [findName_eq hi n]
  exact ⟨fun p => find_First hi _ _ (fun e _ => List.isPrefixOf_iff_prefix) p, find_None _ _ (fun e _ => List.isPrefixOf_iff_prefix)⟩

example : (findName (run (init .fifo 30 true) sampleOps) [comp 1]).2 = some (pkt [1, 0] 0) ∧
    (findName (run (init .fifo 30 true) sampleOps) [comp 2]).2 = none := by decide +kernel

/-- `find(Interest)` returns the first packet in canonical order that matches the Interest and, with
MustBeFresh, is fresh, and nothing only if there is none. Missing: an Interest with MustBeFresh whose
name is the full name of a stored packet - see the witness below. -/
theorem C43_findInterest_partial {policy : Policy} {limit : Nat} {hasSched : Bool} {s : St} (h : Reach policy limit hasSched s)
    (f : IFields) (hx : f.mustBeFresh = true → ∀ p, Stored s p → p.full ≠ f.name) :
    (∀ p, (findInterest s f).2 = some p ↔ First s (fun q => Matches f q ∧ (f.mustBeFresh = true → StoredFresh s q)) p) ∧
    ((findInterest s f).2 = none ↔ ∀ p, Stored s p → Matches f p → f.mustBeFresh = true ∧ ¬ StoredFresh s p) := by
  obtain ⟨T, _, hi, _, _, _, _⟩ := reach_good h
  by_cases hex : ∃ e ∈ s.cache, e.pkt.full = f.name
  · obtain ⟨e, he, hf⟩ := hex
    have hm : f.mustBeFresh = false := by
      cases hmf : f.mustBeFresh
      · rfl
      · exact absurd hf (hx hmf e.pkt ⟨e, he, rfl⟩)
    have hfind : s.cache.find? (fun x => decide (x.pkt.full = f.name)) = some e := by
      have := find_full hi he
      rw [hf] at this
      exact this
    have hres : (findInterest s f).2 = some e.pkt := by
      unfold findInterest
      rw [hfind]
    have hmatch : Matches f e.pkt := Or.inr (Or.inl hf.symm)
    rw [hres]
    refine ⟨?_, ?_⟩
    · intro p
      constructor
      · intro h
        cases h
        refine ⟨⟨e, he, rfl⟩, ⟨hmatch, by simp [hm]⟩, ?_⟩
        rintro q ⟨e', he', rfl⟩ ⟨hq, _⟩ hne
        have hp := matches_prefix hq
        rw [← hf] at hp
        rcases NameLt_total e.pkt.full e'.pkt.full with h | h | h
        · exact h
        · exact absurd (by rw [hi.fullInj he he' h]) hne
        · exact absurd h (not_lt_of_prefix hp)
      · rintro ⟨⟨e', he', rfl⟩, ⟨hq, _⟩, hmin⟩
        by_cases hne : e.pkt = e'.pkt
        · rw [hne]
        · have := hmin e.pkt ⟨e, he, rfl⟩ ⟨hmatch, by simp [hm]⟩ hne
          have hp := matches_prefix hq
          rw [← hf] at hp
          exact absurd this (not_lt_of_prefix hp)
    · constructor
      · intro h; cases h
      · intro h
        have := (h e.pkt ⟨e, he, rfl⟩ hmatch).1
        rw [hm] at this
        cases this
  · have hne : ∀ e ∈ s.cache, e.pkt.full ≠ f.name := fun e he hf => hex ⟨e, he, hf⟩
    rw [findInterest_eq hi f hne]
    have hQR : ∀ e ∈ s.cache, (qual f e = true ↔ (Matches f e.pkt ∧ (f.mustBeFresh = true → StoredFresh s e.pkt))) := by
      intro e he
      unfold qual
      rw [Bool.and_eq_true, matchesEntry_iff (hi.digests e he)]
      have : (!f.mustBeFresh || e.fresh) = true ↔ (f.mustBeFresh = true → StoredFresh s e.pkt) := by
        cases hm : f.mustBeFresh
        · simp
        · simp only [Bool.not_true, Bool.false_or, true_implies]
          constructor
          · intro hf; exact ⟨e, he, rfl, hf⟩
          · rintro ⟨e', he', hp, hf⟩
            rw [← pkt_inj hi he' he hp]; exact hf
      rw [this]
      exact and_comm
    refine ⟨fun p => find_First hi _ _ hQR p, (find_None (qual f) (fun q => Matches f q ∧ (f.mustBeFresh = true → StoredFresh s q)) hQR).trans ?_⟩
    constructor
    · intro h p hp hm
      refine ⟨?_, ?_⟩
      · cases hmf : f.mustBeFresh
        · exact absurd ⟨hm, by simp [hmf]⟩ (h p hp)
        · rfl
      · intro hfr
        exact h p hp ⟨hm, fun _ => hfr⟩
    · rintro h p hp ⟨hm, hfr⟩
      obtain ⟨h1, h2⟩ := h p hp hm
      exact h2 (hfr h1)

/-- Packet 3 is stale; the others are fresh. -/
example : (findInterest (run (init .fifo 30 true) sampleOps) (want [comp 1, comp 3] true)).2 = none ∧
    (findInterest (run (init .fifo 30 true) sampleOps) (want [comp 1, comp 3] false)).2 = some (pkt [1, 3] 0) ∧
    (findInterest (run (init .fifo 30 true) sampleOps) (want [comp 1, comp 4] true)).2 = some (pkt [1, 4] 0) := by decide +kernel

/-- The full claim: with MustBeFresh, only fresh packets are returned. -/
def C43_claim : Prop :=
  ∀ (policy : Policy) (limit : Nat) (hasSched : Bool) (s : St), Reach policy limit hasSched s →
    ∀ (f : IFields) (p : Pkt), f.mustBeFresh = true → (findInterest s f).2 = some p → StoredFresh s p

/-- An Interest with the full name of a stale packet gets that packet in spite of MustBeFresh. -/
theorem C43_exact_counterexample : ¬ C43_claim := by
  intro h
  have := h .fifo 16 true (run (init .fifo 16 true) [.insert (pkt [1] 0) 0, .fire 0])
    ⟨by decide, _, by
      intro p w hm
      simp only [List.mem_cons, Op.insert.injEq, reduceCtorEq, List.not_mem_nil, or_false] at hm
      rw [hm.1]; decide, fun h => absurd h (by decide), by decide, rfl⟩ (want (pkt [1] 0).full true) (pkt [1] 0) rfl (by decide +kernel)
  revert this
  unfold StoredFresh
  decide +kernel

/-! ### C44: replacement -/

/-- The history of a storage is one its policy allows: a FIFO storage evicts the packet inserted first,
an LRU storage the one least recently returned by a find (or inserted), an LFU storage one with the
fewest finds, a persistent storage none; and exactly the packets inserted and not since evicted or
erased are stored. Missing: finds by an Interest that carries the full name do not count as uses - see
the witness below. -/
theorem C44_policy_partial {policy : Policy} {limit : Nat} {hasSched : Bool} {s : St} (h : Reach policy limit hasSched s) :
    ∃ a, obsRun policy false [] s.log = some a ∧ (a.map Item.full).Perm (s.cache.map (fun e => e.pkt.full)) := by
  obtain ⟨T, ho, hi, hr, _, _, _⟩ := reach_good h
  refine ⟨T.map itemOf, ho, ?_⟩
  have := hr.perm.map (fun e : Entry => e.pkt.full)
  rw [List.map_map] at this ⊢
  exact this

/-- The automaton does distinguish: after inserts of 1 and 2 and a use of 1, FIFO evicts 1 only, LRU and
LFU 2 only. -/
example : (obsRun .fifo false [] [.inserted [comp 1] none, .inserted [comp 2] none, .used [comp 1], .evicted [comp 1]]).isSome ∧
    obsRun .lru false [] [.inserted [comp 1] none, .inserted [comp 2] none, .used [comp 1], .evicted [comp 1]] = none ∧
    obsRun .lfu false [] [.inserted [comp 1] none, .inserted [comp 2] none, .used [comp 1], .evicted [comp 1]] = none ∧
    obsRun .persistent false [] [.inserted [comp 1] none, .evicted [comp 1]] = none ∧
    (obsRun .lru false [] [.inserted [comp 1] none, .inserted [comp 2] none, .used [comp 1], .evicted [comp 2]]).isSome := by decide

def C44_claim : Prop :=
  ∀ (policy : Policy) (limit : Nat) (hasSched : Bool) (s : St), Reach policy limit hasSched s →
    ∃ a, obsRun policy true [] s.log = some a

/-- Packets 1 and 2 are stored, then 1 is retrieved by its full name: LRU still evicts 1. -/
theorem C44_exact_counterexample : ¬ C44_claim := by
  intro h
  obtain ⟨a, ha⟩ := h .lru 2 false (run (init .lru 2 false)
      [.insert (pkt [1] 0) (-1), .insert (pkt [2] 0) (-1), .findInterest (want (pkt [1] 0).full false), .insert (pkt [3] 0) (-1)])
    ⟨by decide, _, by
      intro p w hm
      simp only [List.mem_cons, Op.insert.injEq, reduceCtorEq, List.not_mem_nil, or_false] at hm
      rcases hm with hm | hm | hm | hm <;> first | cases hm; done | (rw [hm.1]; decide), by
      intro _ n b hm
      simp only [List.mem_cons, reduceCtorEq, List.not_mem_nil, or_false] at hm, by decide, rfl⟩
  have : obsRun .lru true [] (run (init .lru 2 false)
      [.insert (pkt [1] 0) (-1), .insert (pkt [2] 0) (-1), .findInterest (want (pkt [1] 0).full false), .insert (pkt [3] 0) (-1)]).log = none := by
    decide +kernel
  rw [this] at ha
  cases ha

/-- `insert`: a packet that is already stored changes nothing; otherwise it is added, with its
freshness deadline, and something is evicted only if the storage holds `limit` packets - then exactly
one packet. -/
theorem C44_insert {policy : Policy} {limit : Nat} {hasSched : Bool} {s : St} (h : Reach policy limit hasSched s) (p : Pkt) (w : Int)
    (hp : p.digest.length = 32) :
    (Stored s p → insert s p w = s) ∧
    (¬ Stored s p → Stored (insert s p w) p ∧
      ∃ ev, (insert s p w).log = s.log ++ ev ++ [.inserted p.full (if hasSched && decide (w ≥ 0) then some (s.now + w.toNat) else none)] ∧
        (ev = [] ∧ s.nPackets < limit ∧ (∀ q, Stored (insert s p w) q ↔ q = p ∨ Stored s q) ∨
         s.nPackets = limit ∧ ∃ v, Stored s v ∧ ev = [.evicted v.full] ∧
           (∀ q, Stored (insert s p w) q ↔ q = p ∨ Stored s q ∧ q ≠ v))) := by
  have hsch : s.hasSched = hasSched := by
    obtain ⟨_, ops, _, _, _, rfl⟩ := h
    have gen : ∀ (ops : List Op) (s : St), (run s ops).hasSched = s.hasSched := by
      intro ops
      induction ops with
      | nil => intro s; rfl
      | cons op ops ih =>
        intro s
        show (run (step s op) ops).hasSched = _
        rw [ih]
        exact step_hasSched s op
    exact gen ops _
  obtain ⟨T, _, hi, hr, hpol, hlim, hper⟩ := reach_good h
  have hfullp : ∀ {a b : Pkt}, a.full = b.full → a = b := fun {a b} hab => by
    unfold Pkt.full at hab
    have h1 := List.append_inj_left' hab rfl
    have h2 := List.append_inj_right' hab rfl
    cases a; cases b
    simp only [List.cons.injEq, Comp.mk.injEq, true_and, and_true] at h1 h2
    rw [h1, h2]
  have hany : s.cache.any (fun e => decide (e.pkt.full = p.full)) = true ↔ Stored s p := by
    rw [List.any_eq_true]
    constructor
    · rintro ⟨e, he, hf⟩
      exact ⟨e, he, hfullp (of_decide_eq_true hf)⟩
    · rintro ⟨e, he, rfl⟩
      exact ⟨e, he, by simp⟩
  refine ⟨fun hs => by unfold insert; rw [if_pos (hany.mpr hs)], fun hs => ?_⟩
  have heq : insert s p w = store (makeRoom s) p w := by unfold insert; rw [if_neg (fun hh => hs (hany.mp hh))]
  rw [heq]
  obtain ⟨obs, T1, a1, a2, a3, a4, a5, a6, a7, a8, a9, a10, a11, a12, a13⟩ := makeRoom_spec hi hr (by rw [hpol, hlim]; exact hper)
  have hnew : ∀ e ∈ (makeRoom s).cache, e.pkt.full ≠ p.full := by
    intro e he hf
    obtain ⟨t, ht, hte⟩ := List.mem_map.mp (a4.perm.mem_iff.mpr he)
    exact hs ⟨t.1, hr.mem (a6 t ht), hfullp (by rw [hte]; exact hf)⟩
  obtain ⟨T2, b1, b2, b3, b4, b5, b6, b7, b8⟩ := store_spec a3 a4 a5 w hp hnew
  have hst : ∀ q, Stored (store (makeRoom s) p w) q ↔ q = p ∨ Stored (makeRoom s) q := by
    intro q
    have hiff : ∀ (s : St) (T : List Tag), Rel s T → ∀ q, (Stored s q ↔ ∃ x ∈ T.map itemOf, x.full = q.full) := by
      intro s T hr q
      constructor
      · rintro ⟨e, he, rfl⟩
        obtain ⟨t, ht, hte⟩ := List.mem_map.mp (hr.perm.mem_iff.mpr he)
        exact ⟨itemOf t, List.mem_map_of_mem ht, by rw [← hte]; rfl⟩
      · rintro ⟨x, hx, hf⟩
        obtain ⟨t, ht, rfl⟩ := List.mem_map.mp hx
        exact ⟨t.1, hr.mem ht, hfullp hf⟩
    rw [hiff _ _ b4, hiff _ _ a4, b2]
    constructor
    · rintro ⟨x, hx, hf⟩
      rcases List.mem_append.mp hx with hx | hx
      · exact Or.inr ⟨x, hx, hf⟩
      · rw [List.mem_singleton] at hx
        subst hx
        exact Or.inl (hfullp hf).symm
    · rintro (rfl | ⟨x, hx, hf⟩)
      · exact ⟨_, List.mem_append_right _ (List.mem_singleton.mpr rfl), rfl⟩
      · exact ⟨x, List.mem_append_left _ hx, hf⟩
  refine ⟨(hst p).mpr (Or.inl rfl), obs, ?_, ?_⟩
  · rw [b1, a1]
    unfold deadline
    rw [a10, a9, hsch]
  · have hn := hi.n
    have hcap := hi.cap
    have hli := hi.lim
    rcases Nat.lt_or_ge s.nPackets limit with hlt | hge
    · left
      have hobs : obs = [] := by
        rcases a13 with h | ⟨h, _⟩
        · exact h
        · omega
      refine ⟨hobs, hlt, ?_⟩
      intro q
      rw [hst]
      have : Stored (makeRoom s) q ↔ Stored s q := by
        have hcache : (makeRoom s).cache = s.cache := makeRoom_cache hi (by rw [hlim]; omega)
        unfold Stored
        rw [hcache]
      rw [this]
    · right
      refine ⟨by omega, ?_⟩
      have hnp : s.policy ≠ .persistent := by
        intro hh
        rw [hpol] at hh
        have := hper hh
        omega
      obtain ⟨t, ht, _, hev⟩ := evict_spec hi hr hnp (by intro h0; rw [h0] at hn; simp at hn; omega)
      have hm : makeRoom s = (evictItem s).2 := by
        unfold makeRoom
        have h1 : s.limit = s.capacity := by omega
        have h2 : isFull s = true := by simp [isFull]; omega
        simp [h1, h2]
      rw [hev] at hm
      have hcache : (makeRoom s).cache = s.cache.filter (fun x => x.slot.id ≠ t.1.slot.id) := by rw [hm]; rfl
      refine ⟨t.1.pkt, ⟨t.1, hr.mem ht, rfl⟩, ?_, ?_⟩
      · have : (makeRoom s).log = s.log ++ [.evicted t.1.pkt.full] := by rw [hm]
        rw [a1] at this
        exact List.append_cancel_left this
      · intro q
        rw [hst]
        have : Stored (makeRoom s) q ↔ Stored s q ∧ q ≠ t.1.pkt := by
          unfold Stored
          rw [hcache]
          constructor
          · rintro ⟨e, he, rfl⟩
            obtain ⟨he, hne⟩ := List.mem_filter.mp he
            refine ⟨⟨e, he, rfl⟩, fun hh => ?_⟩
            rw [pkt_inj hi he (hr.mem ht) hh] at hne
            simp at hne
          · rintro ⟨⟨e, he, rfl⟩, hne⟩
            refine ⟨e, List.mem_filter.mpr ⟨he, ?_⟩, rfl⟩
            have : e.slot.id ≠ t.1.slot.id := fun hh => hne (by rw [hi.idInj he (hr.mem ht) hh])
            simpa using this
        rw [this]

/-- What counts as a use: the packet a find returned. -/
theorem C44_uses (s : St) (n : List Comp) (f : IFields) :
    (findName s n).1.log = s.log ++ ((findName s n).2.map (fun p => Obs.used p.full)).toList ∧
    (findInterest s f).1.log =
      s.log ++ ((findInterest s f).2.map (fun p => if p.full = f.name then Obs.usedExact p.full else Obs.used p.full)).toList := by
  constructor
  · unfold findName
    split
    · simp
    · split
      · simp [(afterAccess_frame s _).2.2]
      · simp
  · unfold findInterest
    split
    · rename_i e he
      have : e.pkt.full = f.name := by have := List.find?_some he; simpa using this
      simp [this]
    · rename_i hnone
      split
      · simp
      · simp only
        split
        · simp
        · rename_i e hsel
          have hne : e.pkt.full ≠ f.name := by
            intro hh
            have hmem := mem_start (selectChild_mem hsel)
            have := List.find?_eq_none.mp hnone e hmem
            simp [hh] at this
          simp [(afterAccess_frame s _).2.2, hne]

/-- A stored packet is retrievable by its full name. -/
theorem C44_retrievable {policy : Policy} {limit : Nat} {hasSched : Bool} {s : St} (h : Reach policy limit hasSched s) (p : Pkt)
    (hp : Stored s p) : (findName s p.full).2 = some p := by
  obtain ⟨T, _, hi, _, _, _, _⟩ := reach_good h
  rw [(C43_findName h p.full).1 p]
  refine ⟨hp, List.prefix_rfl, ?_⟩
  obtain ⟨e, he, rfl⟩ := hp
  rintro q ⟨e', he', rfl⟩ hq hne
  rcases NameLt_total e.pkt.full e'.pkt.full with h | h | h
  · exact h
  · exact absurd (by rw [hi.fullInj he he' h]) hne
  · exact absurd h (not_lt_of_prefix hq)

/-- Finds, timers and the passage of time keep all packets. -/
theorem C44_find_keeps {policy : Policy} {limit : Nat} {hasSched : Bool} {s : St} (h : Reach policy limit hasSched s)
    (n : List Comp) (f : IFields) (dt ev : Nat) (p : Pkt) :
    (Stored (findName s n).1 p ↔ Stored s p) ∧ (Stored (findInterest s f).1 p ↔ Stored s p) ∧
    (Stored (step s (.advance dt)) p ↔ Stored s p) ∧ (Stored (step s (.fire ev)) p ↔ Stored s p) := by
  refine ⟨?_, ?_, Iff.rfl, ?_⟩
  · unfold Stored; rw [findName_cache]
  · unfold Stored; rw [findInterest_cache]
  · show Stored (fire s ev) p ↔ _
    unfold fire
    split
    · exact Iff.rfl
    · split
      · rename_i x _ _
        unfold Stored
        show (∃ e ∈ s.cache.map (setStale x.target), e.pkt = p) ↔ _
        constructor
        · rintro ⟨e, he, hp⟩
          obtain ⟨u, hu, rfl⟩ := List.mem_map.mp he
          rw [setStale_pkt] at hp
          exact ⟨u, hu, hp⟩
        · rintro ⟨e, he, hp⟩
          exact ⟨_, List.mem_map_of_mem he, by rw [setStale_pkt]; exact hp⟩
      · exact Iff.rfl

example : Stored (run (init .lru 30 true) sampleOps) (pkt [1, 3] 0) := by unfold Stored; decide +kernel

/-! ### C45: erasing -/

/-- `erase(fullName, false)` removes exactly the packet with that full name. -/
theorem C45_erase_full {policy : Policy} {limit : Nat} {hasSched : Bool} {s : St} (h : Reach policy limit hasSched s)
    (n : List Comp) (hl : 16 ≤ limit) (p : Pkt) : Stored (erase s n false) p ↔ Stored s p ∧ p.full ≠ n := by
  obtain ⟨T, _, hi, hr, _, hlim, _⟩ := reach_good h
  unfold erase
  simp only [Bool.false_eq_true, if_false]
  cases hf : s.cache.find? (fun e => decide (e.pkt.full = n)) with
  | none =>
    simp only
    constructor
    · rintro ⟨e, he, rfl⟩
      refine ⟨⟨e, he, rfl⟩, fun hh => ?_⟩
      exact absurd (decide_eq_true hh) (List.find?_eq_none.mp hf e he)
    · exact fun h => h.1
  | some e =>
    have he := List.mem_of_find?_eq_some hf
    have hen : e.pkt.full = n := by have := List.find?_some hf; simpa using this
    obtain ⟨T', a1, a2, a3, a4, a5, a6, a7, a8, a9⟩ := eraseEntry_spec hi hr he
    obtain ⟨b1, b2, b3, _⟩ := shrink_spec a3 a4 (by rw [a7, hlim]; exact hl)
    simp only
    unfold Stored
    rw [b3, a5]
    constructor
    · rintro ⟨x, hx, rfl⟩
      obtain ⟨hx, hne⟩ := List.mem_filter.mp hx
      refine ⟨⟨x, hx, rfl⟩, fun hh => ?_⟩
      rw [hi.fullInj hx he (hh.trans hen.symm)] at hne
      simp at hne
    · rintro ⟨⟨x, hx, rfl⟩, hne⟩
      refine ⟨x, List.mem_filter.mpr ⟨hx, ?_⟩, rfl⟩
      have : x.slot.id ≠ e.slot.id := fun hh => hne (by rw [hi.idInj hx he hh]; exact hen)
      simpa using this

/-- `erase(prefix)` removes exactly the packets whose name has the prefix. Missing: a prefix that is
itself the full name of a stored packet - see the witness below. -/
theorem C45_erase_prefix_partial {policy : Policy} {limit : Nat} {hasSched : Bool} {s : St} (h : Reach policy limit hasSched s)
    (n : List Comp) (hl : 16 ≤ limit) (hn : ∀ p, Stored s p → p.full ≠ n) (p : Pkt) :
    Stored (erase s n true) p ↔ Stored s p ∧ ¬ n <+: p.name := by
  obtain ⟨T, _, hi, hr, _, hlim, _⟩ := reach_good h
  have hn' : ∀ e ∈ s.cache, e.pkt.full ≠ n := fun e he => hn e.pkt ⟨e, he, rfl⟩
  unfold erase
  simp only [if_true]
  have hsub : ((lowerBound s n).takeWhile (fun e => n.isPrefixOf e.pkt.name)).Sublist s.cache :=
    (List.takeWhile_sublist _).trans (List.dropWhile_sublist _)
  obtain ⟨T', a1, a2, a3, a4, a5, a6, a7, a8, a9⟩ := eraseFold_spec ((lowerBound s n).takeWhile (fun e => n.isPrefixOf e.pkt.name)) hi hr
    (fun e he => hsub.subset he) ((hsub.map _).nodup hi.cacheIds)
  obtain ⟨b1, b2, b3, _⟩ := shrink_spec a3 a4 (by rw [a7, hlim]; exact hl)
  unfold Stored
  rw [b3, a5]
  constructor
  · rintro ⟨x, hx, rfl⟩
    obtain ⟨hx, hne⟩ := List.mem_filter.mp hx
    refine ⟨⟨x, hx, rfl⟩, fun hp => ?_⟩
    have := (erased_mem hi hn' x hx).mpr hp
    have hne := of_decide_eq_true hne
    exact hne (List.mem_map_of_mem this)
  · rintro ⟨⟨x, hx, rfl⟩, hne⟩
    refine ⟨x, List.mem_filter.mpr ⟨hx, ?_⟩, rfl⟩
    apply decide_eq_true
    intro hm
    obtain ⟨y, hy, hid⟩ := List.mem_map.mp hm
    have := hi.idInj (hsub.subset hy) hx hid
    rw [this] at hy
    exact hne ((erased_mem hi hn' x hx).mp hy)

example : ∀ p, Stored (run (init .lfu 30 true) sampleOps) p → p.full ≠ [comp 1] := by
  rintro p ⟨e, he, rfl⟩
  revert e
  decide +kernel

def C45_claim : Prop :=
  ∀ (policy : Policy) (limit : Nat) (hasSched : Bool) (s : St), Reach policy limit hasSched s → 16 ≤ limit →
    ∀ (n : List Comp) (p : Pkt), Stored (erase s n true) p ↔ Stored s p ∧ ¬ n <+: p.name

/-- Packets named `/1` and `/1/<digest>/2`, where `/1/<digest>` is the full name of the first: erasing
the prefix `/1/<digest>` erases neither. -/
theorem C45_erase_prefix_counterexample : ¬ C45_claim := by
  intro h
  have := (h .fifo 16 false (run (init .fifo 16 false)
      [.insert (pkt [1] 0) (-1), .insert ⟨(pkt [1] 0).full ++ [comp 2], dig 1⟩ (-1)])
    ⟨by decide, _, by
      intro p w hm
      simp only [List.mem_cons, Op.insert.injEq, reduceCtorEq, List.not_mem_nil, or_false] at hm
      rcases hm with hm | hm <;> rw [hm.1] <;> decide, fun h => absurd h (by decide), by decide, rfl⟩ (by decide) (pkt [1] 0).full
      ⟨(pkt [1] 0).full ++ [comp 2], dig 1⟩).mp (by unfold Stored; decide +kernel)
  exact this.2 ⟨[comp 2], rfl⟩

/-! ### C46: freshness -/

/-- Freshness: a packet without a deadline is fresh; a packet marked stale has reached its own deadline;
and once the timers that are due have run, a packet is fresh exactly until its deadline. The deadline
of a packet is the one set when it was inserted (`C44_insert`), whatever other packets used the entry. -/
theorem C46_fresh {policy : Policy} {limit : Nat} {hasSched : Bool} {s : St} (h : Reach policy limit hasSched s) :
    ∃ a, obsRun policy false [] s.log = some a ∧ (a.map Item.full).Perm (s.cache.map (fun e => e.pkt.full)) ∧
      ∀ x ∈ a, ∀ p, p.full = x.full → Stored s p →
        (x.staleAt = none → StoredFresh s p) ∧
        (∀ d, x.staleAt = some d → ¬ StoredFresh s p → d ≤ s.now) ∧
        (∀ d, x.staleAt = some d → (∀ ev ∈ s.events, s.now < ev.due) → (StoredFresh s p ↔ s.now < d)) := by
  obtain ⟨T, ho, hi, hr, _, _, _⟩ := reach_good h
  refine ⟨T.map itemOf, ho, ?_, ?_⟩
  · have := hr.perm.map (fun e : Entry => e.pkt.full)
    rw [List.map_map] at this ⊢
    exact this
  · rintro x hx p hp ⟨e, he, rfl⟩
    obtain ⟨t, ht, rfl⟩ := List.mem_map.mp hx
    have hte : t.1 = e := hi.fullInj (hr.mem ht) he hp.symm
    have hf := hr.fresh t ht
    have hsf : StoredFresh s e.pkt ↔ e.fresh = true := by
      constructor
      · rintro ⟨e', he', hpp, hff⟩
        rw [← pkt_inj hi he' he hpp]; exact hff
      · intro hff; exact ⟨e, he, rfl, hff⟩
    rw [hsf]
    unfold FreshRel at hf
    rw [hte] at hf
    have hstale : (itemOf t).staleAt = t.2.1 := rfl
    rw [hstale]
    refine ⟨?_, ?_, ?_⟩
    · intro hn
      rw [hn] at hf
      exact hf.1
    · intro d hd hnf
      rw [hd] at hf
      rcases hf with ⟨a, _⟩ | ⟨_, b, _⟩
      · exact absurd a hnf
      · exact b
    · intro d hd hev
      rw [hd] at hf
      rcases hf with ⟨a, y, hy, _, hy2⟩ | ⟨a, b, _⟩
      · have := hev y hy
        constructor
        · intro _; omega
        · intro _; exact a
      · constructor
        · intro hh; rw [a] at hh; cases hh
        · intro hh; omega

/-- At time 10 with event 3 run: packet 3 is stale, packet 4 not yet marked, deadline 10. -/
example : ¬ StoredFresh (run (init .fifo 30 true) sampleOps) (pkt [1, 3] 0) ∧
    StoredFresh (run (init .fifo 30 true) sampleOps) (pkt [1, 4] 0) := by
  unfold StoredFresh
  decide +kernel

/-- A recycled entry: the packet stored in it is not affected by the first one's timer, which is gone. -/
example : (run (init .fifo 1 true) [.insert (pkt [1] 0) 5, .insert (pkt [2] 0) 100, .advance 10, .fire 0, .fire 1]).cache.map
    (fun e => (e.slot.id, e.pkt, e.fresh)) = [(0, pkt [2] 0, true)] := by decide +kernel

/-! ### C78: iteration -/

/-- Iterating over a non-empty storage visits every stored packet once, in canonical order of full
names. -/
theorem C78_iterate_partial {policy : Policy} {limit : Nat} {hasSched : Bool} {s : St} (h : Reach policy limit hasSched s)
    (hne : s.nPackets ≠ 0) :
    ∃ l, iterate s = some l ∧ l.Pairwise (fun a b => NameLt a.full b.full) ∧ l.Nodup ∧ l.length = s.nPackets ∧
      ∀ p, p ∈ l ↔ Stored s p := by
  obtain ⟨T, _, hi, _, _, _, _⟩ := reach_good h
  have hn := hi.n
  have hc : s.cache ≠ [] := by intro h0; rw [h0] at hn; exact hne hn
  have hpw : (s.cache.map Entry.pkt).Pairwise (fun a b => NameLt a.full b.full) := by
    rw [List.pairwise_map]
    exact hi.sorted.imp (fun h => (nameLt_iff _ _).mp h)
  refine ⟨s.cache.map Entry.pkt, by unfold iterate; rw [if_neg hc], hpw, ?_, by simp [hn], ?_⟩
  · refine hpw.imp ?_
    intro a b h heq
    rw [heq] at h
    exact NameLt_irrefl _ h
  · intro p
    rw [List.mem_map]
    rfl

example : (run (init .lfu 30 true) sampleOps).nPackets ≠ 0 := by decide +kernel

def C78_claim : Prop :=
  ∀ (policy : Policy) (limit : Nat) (hasSched : Bool) (s : St), Reach policy limit hasSched s → ∃ l, iterate s = some l

/-- On an empty storage, `begin` dereferences the end iterator. -/
theorem C78_empty_counterexample : ¬ C78_claim := by
  intro h
  obtain ⟨l, hl⟩ := h .fifo 16 false (init .fifo 16 false) ⟨by decide, [], fun _ _ hm => (List.not_mem_nil hm).elim, fun h => absurd h (by decide), by decide, rfl⟩
  cases hl

end Ndn.Ims
