import Verif.Fetch.Progress
/- A timer always runs. -/
namespace Ndn.Fetch
open Spec

def isPend (pending : List Pend) (k : Nat) : Bool := pending.any (fun p => p.seg = k)

/-- Requests in the queue that will be sent. -/
def cnt (pending : List Pend) (q : List Nat) : Nat := (q.filter (isPend pending)).length

theorem takeRetx_spec (p : List Pend) (a : Int) (q : List Nat) :
    (takeRetx p a q).2.1 = a - (takeRetx p a q).1.length ∧ (∀ k ∈ (takeRetx p a q).2.2, k ∈ q) ∧
    (∀ k ∈ q, isPend p k = true → k ∈ (takeRetx p a q).1 ∨ k ∈ (takeRetx p a q).2.2) ∧
    (0 < (takeRetx p a q).2.1 → (takeRetx p a q).2.2 = []) ∧
    (takeRetx p a q).1.length + cnt p (takeRetx p a q).2.2 = cnt p q := by
  induction q generalizing a with
  | nil => simp [takeRetx, cnt]
  | cons k q ih =>
    unfold takeRetx
    by_cases ha : a ≤ 0
    · rw [if_pos ha]
      refine ⟨by simp, by simp, ?_, ?_, by simp⟩
      · intro j hj _; exact Or.inr hj
      · intro h; simp only at h; omega
    · rw [if_neg ha]
      by_cases hp : p.any (fun x => x.seg = k) = true
      · rw [if_pos hp]
        obtain ⟨i1, i2, i3, i4, i5⟩ := ih (a - 1)
        have hp' : isPend p k = true := hp
        refine ⟨?_, ?_, ?_, i4, ?_⟩
        · simp only [List.length_cons]; rw [i1]; omega
        · intro j hj; exact List.mem_cons_of_mem _ (i2 j hj)
        · intro j hj hjp
          rcases List.mem_cons.1 hj with rfl | hj
          · left; simp
          · rcases i3 j hj hjp with h | h
            · left; exact List.mem_cons_of_mem _ h
            · right; exact h
        · simp only [List.length_cons]
          unfold cnt at i5 ⊢
          rw [List.filter_cons_of_pos hp', List.length_cons]
          omega
      · rw [if_neg hp]
        obtain ⟨i1, i2, i3, i4, i5⟩ := ih a
        have hp' : ¬ isPend p k = true := hp
        refine ⟨i1, ?_, ?_, i4, ?_⟩
        · intro j hj; exact List.mem_cons_of_mem _ (i2 j hj)
        · intro j hj hjp
          rcases List.mem_cons.1 hj with rfl | hj
          · exact absurd hjp hp'
          · exact i3 j hj hjp
        · unfold cnt at i5 ⊢
          rw [List.filter_cons_of_neg hp']
          exact i5

structure P (N : Nat) (δ : Int) (x : Option Nat) (s : St) : Prop where
  count : s.inFlight + cnt s.pending s.retx + δ ≤ s.pending.length
  next : s.received ≠ [] → ∀ k, k < s.next → (s.nSeg = 0 ∨ k < s.nSeg) → k ∈ s.received ∨ isPend s.pending k = true
  queue : s.received ≠ [] → ∀ p ∈ s.pending, p.timer = false → p.seg ∈ s.retx ∨ some p.node = x
  nrec : s.nReceived = s.received.length
  recLe : ∀ k ∈ s.received, k ≤ N
  nseg : s.nSeg = 0 ∨ s.nSeg = N + 1
  pendLt : ∀ p ∈ s.pending, s.nSeg ≠ 0 → p.seg < s.nSeg
  retxLt : ∀ k ∈ s.retx, k < s.next
  keys : ∀ k, hasKey k s.buffer = true → k ∈ s.received

def T (s : St) : Prop := ∃ p ∈ s.pending, p.timer = true

theorem isPend_iff {l : List Pend} {k : Nat} : isPend l k = true ↔ ∃ p ∈ l, p.seg = k := by
  simp [isPend]

theorem isPend_core {s t : St} (h : core t = core s) : isPend t.pending = isPend s.pending := by
  funext k; exact core_any_eq h k

/-! Effects of sending on timers -/

theorem sends_core_retx (l : List Nat) (s : St) : core (l.foldl (fun s k => send s k (.exact s.versioned k) true) s) = core s := by
  induction l generalizing s with
  | nil => rfl
  | cons k l ih => rw [List.foldl_cons, ih, send_core_retx]

theorem send_retx_timer {s : St} {k : Nat} {kd : Kind} (hp : isPend s.pending k = true) :
    (∀ q ∈ (send s k kd true).pending, q.timer = false → q ∈ s.pending ∧ q.seg ≠ k) ∧
    T (send s k kd true) := by
  obtain ⟨p, hf⟩ := any_seg hp
  obtain ⟨e1, _, _⟩ := send_retx_eq s k kd p hf
  obtain ⟨hpm, hps⟩ := find_mem hf
  simp only [decide_eq_true_eq] at hps
  constructor
  · rw [e1]
    intro q hq hqt
    obtain ⟨q', hq', rfl⟩ := List.mem_map.1 hq
    by_cases hs : q'.seg = k
    · rw [if_pos hs] at hqt; simp at hqt
    · rw [if_neg hs]; exact ⟨hq', hs⟩
  · refine ⟨{ p with iid := s.nextId, kind := kd, timer := true }, ?_, rfl⟩
    rw [e1]
    exact List.mem_map.2 ⟨p, hpm, by rw [if_pos hps]⟩

theorem sends_retx_timer (l : List Nat) (s : St) (hp : ∀ k ∈ l, isPend s.pending k = true) :
    (∀ q ∈ (l.foldl (fun s k => send s k (.exact s.versioned k) true) s).pending, q.timer = false → q ∈ s.pending ∧ q.seg ∉ l) ∧
    ((T s ∨ l ≠ []) → T (l.foldl (fun s k => send s k (.exact s.versioned k) true) s)) := by
  induction l generalizing s with
  | nil =>
    refine ⟨fun q hq _ => ⟨hq, by simp⟩, ?_⟩
    rintro (h | h)
    · exact h
    · exact absurd rfl h
  | cons k l ih =>
    obtain ⟨a1, a2⟩ := send_retx_timer (kd := .exact s.versioned k) (hp k (by simp))
    obtain ⟨i1, i2⟩ := ih (send s k (.exact s.versioned k) true)
      (by intro j hj; rw [isPend_core (send_core_retx s k _)]; exact hp j (by simp [hj]))
    constructor
    · intro q hq hqt
      obtain ⟨b1, b2⟩ := i1 q hq hqt
      obtain ⟨c1, c2⟩ := a1 q b1 hqt
      exact ⟨c1, by simp only [List.mem_cons, not_or]; exact ⟨c2, b2⟩⟩
    · intro _; exact i2 (Or.inl a2)

theorem sends_new_spec (l : List Nat) (s : St) (hn : l.Nodup) (hp : ∀ k ∈ l, isPend s.pending k = false) :
    ∃ ps : List Pend, (l.foldl (fun s k => send s k (.exact s.versioned k) false) s).pending = s.pending ++ ps ∧
      ps.map Pend.seg = l ∧ ∀ p ∈ ps, p.timer = true := by
  induction l generalizing s with
  | nil => exact ⟨[], by simp⟩
  | cons k l ih =>
    rw [List.nodup_cons] at hn
    obtain ⟨e1, _⟩ := (send_new_eq s k (.exact s.versioned k)).2.1 (hp k (by simp))
    obtain ⟨ps, i1, i2, i3⟩ := ih (send s k (.exact s.versioned k) false) hn.2 (by
      intro j hj
      rw [e1]
      have h1 := hp j (by simp [hj])
      have hne : k ≠ j := by rintro rfl; exact hn.1 hj
      unfold isPend at h1 ⊢
      rw [List.any_append, h1]
      simp [hne])
    refine ⟨⟨k, s.nextId, s.nextId, .exact s.versioned k, true⟩ :: ps, ?_, ?_, ?_⟩
    · rw [List.foldl_cons, i1, e1]; simp
    · simp [i2]
    · intro p hp
      rcases List.mem_cons.1 hp with rfl | hp
      · rfl
      · exact i3 p hp

theorem length_core (s : St) : s.pending.length = (core s).length := by simp [core]

theorem cnt_of_all {s : St} (h : (s.pending.map Pend.seg).Nodup) {q : List Nat} (hq : ∀ p ∈ s.pending, p.seg ∈ q) :
    s.pending.length ≤ cnt s.pending q := by
  unfold cnt
  have := length_le_of_nodup_subset (l := s.pending.map Pend.seg) (m := q.filter (isPend s.pending)) h (by
    intro x hx
    obtain ⟨p, hp, rfl⟩ := List.mem_map.1 hx
    rw [List.mem_filter]
    exact ⟨hq p hp, isPend_iff.2 ⟨p, hp, rfl⟩⟩)
  simpa using this

/-- With enough packets received, nothing is missing. -/
theorem enough_missing {N : Nat} {s : St} {δ : Int} {x : Option Nat} (hp : P N δ x s) (hN : N + 1 < 2 ^ 63) (hnd : s.received.Nodup)
    (he : enough s = true) : missing s = [] := by
  unfold enough at he
  simp only [Bool.decide_and, Bool.and_eq_true, decide_eq_true_eq] at he
  obtain ⟨h1, h2⟩ := he
  have hns : s.nSeg = N + 1 := by
    rcases hp.nseg with h | h
    · exact absurd h h1
    · exact h
  have h3 : toI64 s.nSeg = s.nSeg := by unfold toI64; rw [if_pos (by omega)]
  rw [h3, hp.nrec, hns] at h2
  unfold missing
  rw [List.filter_eq_nil_iff]
  intro i hi
  rw [List.mem_range, hns] at hi
  simp only [decide_eq_true_eq, Decidable.not_not]
  -- pigeonhole
  apply Classical.byContradiction
  intro hni
  have := length_le_of_nodup_subset (l := i :: s.received) (m := List.range (N + 1)) (List.nodup_cons.2 ⟨hni, hnd⟩) (by
    intro x hx
    rw [List.mem_range]
    rcases List.mem_cons.1 hx with rfl | hx
    · exact hi
    · have := hp.recLe x hx; omega)
  simp only [List.length_cons, List.length_range] at this
  omega

theorem fetchWindow_P {N : Nat} {s : St} {w : Nat} (hN : N + 1 < 2 ^ 63) (h : Inv s) (hp : P N 0 none s) (hr : s.received ≠ [])
    (hi : s.cfg.inOrder = false) : (fetchWindow s w).stopped = true ∨ (P N 0 none (fetchWindow s w) ∧ T (fetchWindow s w)) := by
  rw [fetchWindow_eq]
  split
  · left; exact (finalize_fields s).2.2.2
  · rename_i hne
    right
    have hen : enough s = false := by
      cases he : enough s with
      | false => rfl
      | true =>
        exfalso; apply hne
        rw [he, enough_missing hp hN h.recNodup he]; rfl
    have hw : winRetx s = s.retx := by unfold winRetx; rw [if_neg (by rw [hen]; simp)]
    have hav : avail s w = (max w 1 : Int) - s.inFlight := by unfold avail; rw [if_neg (by rw [hi]; simp)]
    obtain ⟨r1, r2, r3, r4, r5⟩ := takeRetx_spec s.pending (avail s w) (winRetx s)
    have rm := takeRetx_mem s.pending (avail s w) (winRetx s)
    obtain ⟨t1, t2, t3, t4, t5, t6⟩ := takeNew_spec s.buffer s.nSeg (takeRetx s.pending (avail s w) (winRetx s)).2.1.toNat s.next _ _ rfl
    have b1 := winBase_inv (w := w) h hr
    have bnext : (winBase s w).next = (takeNew s.buffer s.nSeg (takeRetx s.pending (avail s w) (winRetx s)).2.1.toNat s.next).2 := rfl
    have bretx : (winBase s w).retx = (takeRetx s.pending (avail s w) (winRetx s)).2.2 := rfl
    have bp : (winBase s w).pending = s.pending := rfl
    have bf : (winBase s w).inFlight = s.inFlight ∧ (winBase s w).received = s.received ∧ (winBase s w).nSeg = s.nSeg ∧
      (winBase s w).nReceived = s.nReceived ∧ (winBase s w).buffer = s.buffer ∧ core (winBase s w) = core s := ⟨rfl, rfl, rfl, rfl, rfl, rfl⟩
    generalize winBase s w = s2 at *
    rw [hw] at *
    generalize takeRetx s.pending (avail s w) s.retx = rr at *
    cases hnn : takeNew s.buffer s.nSeg rr.2.1.toNat s.next with
    | mk l nx =>
    rw [hnn] at t1 t2 t3 t4 t5 t6 bnext
    simp only at t1 t2 t3 t4 t5 t6 bnext ⊢
    obtain ⟨bf1, bf2, bf3, bf4, bf5, bf6⟩ := bf
    have rm' : ∀ k ∈ rr.1, isPend s2.pending k = true := by intro k hk; rw [bp]; exact rm k hk
    obtain ⟨c1, c2⟩ := sends_retx_timer rr.1 s2 rm'
    have cc := sends_core_retx rr.1 s2
    have cf := sends_fields rr.1 true s2 _ rfl
    generalize rr.1.foldl (fun s k => send s k (.exact s.versioned k) true) s2 = s3 at *
    have hpl : ∀ k ∈ l, isPend s.pending k = false := by
      intro k hk
      have hk' := t3 k hk
      cases hpk : isPend s.pending k with
      | false => rfl
      | true =>
        obtain ⟨p, hpm, he⟩ := isPend_iff.1 hpk
        have := (h.fresh hr _ (mem_core hpm)).2
        simp only at this
        omega
    have hpl3 : ∀ k ∈ l, isPend s3.pending k = false := by
      intro k hk; rw [isPend_core cc, bp]; exact hpl k hk
    obtain ⟨ps, d1, d2, d3⟩ := sends_new_spec l s3 t2 hpl3
    have df := sends_fields l false s3 _ rfl
    generalize l.foldl (fun s k => send s k (.exact s.versioned k) false) s3 = s4 at *
    obtain ⟨cf1, cf2, cf3, cf4, cf5, cf6, cf7, cf8, cf9, cf10, cf11, cf12, cf13, _⟩ := cf
    obtain ⟨df1, df2, df3, df4, df5, df6, df7, df8, df9, df10, df11, df12, df13, _⟩ := df
    have hlen : s4.pending.length = s.pending.length + l.length := by
      rw [d1, List.length_append, length_core s3, cc, bf6, ← length_core]
      rw [← d2, List.length_map]
    have e_rec : s4.received = s.received := by rw [df3, cf3, bf2]
    have e_retx : s4.retx = rr.2.2 := by rw [df6, cf6, bretx]
    have e_next : s4.next = nx := by rw [df5, cf5, bnext]
    have e_nseg : s4.nSeg = s.nSeg := by rw [df10, cf10, bf3]
    have e_buf : s4.buffer = s.buffer := by rw [df4, cf4, bf5]
    have e_nr : s4.nReceived = s.nReceived := by rw [df12, cf12, bf4]
    have e_fl : s4.inFlight = s.inFlight + rr.1.length + l.length := by rw [df13, cf13, bf1]
    have hpend3 : ∀ k, isPend s3.pending k = isPend s.pending k := by intro k; rw [isPend_core cc, bp]
    have hpend4 : ∀ k, isPend s4.pending k = (isPend s.pending k || decide (k ∈ l)) := by
      intro k
      rw [d1]
      unfold isPend
      rw [List.any_append]
      have h1 := hpend3 k
      unfold isPend at h1
      rw [h1]
      congr 1
      rw [← d2]
      rw [Bool.eq_iff_iff]
      simp
    have hcnt : cnt s4.pending rr.2.2 = cnt s.pending rr.2.2 := by
      unfold cnt
      congr 1
      apply List.filter_congr
      intro k hk
      rw [hpend4]
      have h1 := hp.retxLt k (r2 k hk)
      have : k ∉ l := by intro hkl; have := (t3 k hkl).2.1; omega
      simp [this]
    have hcount := hp.count
    have htimer : ∀ q ∈ s4.pending, q.timer = false → q ∈ s.pending ∧ q.seg ∉ rr.1 := by
      intro q hq hqt
      rw [d1] at hq
      rcases List.mem_append.1 hq with hq | hq
      · have := c1 q hq hqt
        rw [bp] at this
        exact this
      · rw [d3 q hq] at hqt; simp at hqt
    have hqueue : ∀ q ∈ s4.pending, q.timer = false → q.seg ∈ rr.2.2 := by
      intro q hq hqt
      obtain ⟨g1, g2⟩ := htimer q hq hqt
      rcases hp.queue hr q g1 hqt with g3 | g3
      · rcases r3 q.seg g3 (isPend_iff.2 ⟨q, g1, rfl⟩) with g4 | g4
        · exact absurd g4 g2
        · exact g4
      · simp at g3
    refine ⟨⟨?_, ?_, ?_, ?_, ?_, ?_, ?_, ?_, ?_⟩, ?_⟩
    · rw [e_fl, e_retx, hcnt, hlen]; omega
    · rw [e_rec, e_next, e_nseg]
      intro _ k hk hks
      rw [hpend4]
      by_cases hkn : k < s.next
      · rcases hp.next hr k hkn hks with h1 | h1
        · exact Or.inl h1
        · right; rw [h1]; rfl
      · rcases t4 k (by omega) hk with h1 | h1
        · right; simp [h1]
        · left; exact hp.keys k h1
    · rw [e_retx]
      intro _ q hq hqt
      exact Or.inl (hqueue q hq hqt)
    · rw [e_nr, e_rec]; exact hp.nrec
    · rw [e_rec]; exact hp.recLe
    · rw [e_nseg]; exact hp.nseg
    · rw [e_nseg, d1]
      intro q hq hns
      rcases List.mem_append.1 hq with hq | hq
      · have : (q.seg, q.node) ∈ core s := by rw [← bf6, ← cc]; exact mem_core hq
        obtain ⟨p, hpm, he⟩ := List.mem_map.1 this
        have h1 := hp.pendLt p hpm hns
        have h2 : p.seg = q.seg := by simpa using congrArg Prod.fst he
        omega
      · have : q.seg ∈ l := by rw [← d2]; exact List.mem_map.2 ⟨q, hq, rfl⟩
        have := (t3 _ this).2.2.2
        omega
    · rw [e_retx, e_next]
      intro k hk
      have := hp.retxLt k (r2 k hk)
      omega
    · rw [e_buf, e_rec]; exact hp.keys
    · -- a timer runs
      apply Classical.byContradiction
      intro hnt
      have hall : ∀ q ∈ s4.pending, q.timer = false := by
        intro q hq
        cases hqt : q.timer with
        | false => rfl
        | true => exact absurd ⟨q, hq, hqt⟩ hnt
      have hl0 : l = [] := by
        cases ps with
        | nil => rw [← d2]; rfl
        | cons p ps =>
          exfalso
          have h1 := d3 p (by simp)
          have h2 := hall p (by rw [d1]; simp)
          rw [h1] at h2; simp at h2
      have hr0 : rr.1 = [] := by
        apply Classical.byContradiction
        intro hne'
        obtain ⟨q, hq, hqt⟩ := c2 (Or.inr hne')
        have := hall q (by rw [d1]; exact List.mem_append_left _ hq)
        rw [hqt] at this; simp at this
      have hps0 : ps = [] := by
        rw [hl0] at d2
        exact List.map_eq_nil_iff.1 d2
      have h44 : s4.pending = s3.pending := by rw [d1, hps0, List.append_nil]
      have h4core : core s4 = core s := by
        have : core s4 = core s3 := by unfold core; rw [h44]
        rw [this, cc, bf6]
      have hsn : (s4.pending.map Pend.seg).Nodup := by
        have := h.segNodup
        rw [← h4core] at this
        unfold core at this
        rw [List.map_map] at this
        exact this
      have hcc := cnt_of_all hsn (q := rr.2.2) (fun p hpm => hqueue p hpm (hall p hpm))
      rw [hcnt, length_core, h4core, ← length_core] at hcc
      rw [hr0] at r5 r1
      simp only [List.length_nil, Nat.zero_add] at r5 r1
      rw [r5] at hcc
      have hfl : s.inFlight ≤ 0 := by omega
      have hpos : 0 < rr.2.1 := by rw [r1, hav]; omega
      have hnil := r4 hpos
      have hpn : s4.pending = [] := by
        cases hpp : s4.pending with
        | nil => rfl
        | cons q qs =>
          have := hqueue q (by rw [hpp]; simp) (hall q (by rw [hpp]; simp))
          rw [hnil] at this; simp at this
      have hsp : ∀ k, isPend s.pending k = false := by
        intro k
        have := hpend4 k
        rw [hpn, hl0] at this
        simp only [List.not_mem_nil, decide_false, Bool.or_false] at this
        rw [← this]; rfl
      have hlt := t6 (by rw [hl0]; simp only [List.length_nil]; omega)
      have hallrec : ∀ k, k < s.nSeg → k ∈ s.received := by
        intro k hk
        by_cases hkn : k < s.next
        · rcases hp.next hr k hkn (Or.inr hk) with h1 | h1
          · exact h1
          · rw [hsp k] at h1; simp at h1
        · rcases t4 k (by omega) (by omega) with h1 | h1
          · rw [hl0] at h1; simp at h1
          · exact hp.keys k h1
      -- so enough packets were received
      have hge : s.nSeg ≤ s.received.length := by
        have := length_le_of_nodup_subset (l := List.range s.nSeg) (m := s.received) List.nodup_range (fun x hx => hallrec x (List.mem_range.1 hx))
        simpa using this
      have hns : s.nSeg = N + 1 := by
        rcases hp.nseg with h1 | h1
        · exact absurd h1 hlt.1
        · exact h1
      have : enough s = true := by
        unfold enough
        simp only [Bool.decide_and, Bool.and_eq_true, decide_eq_true_eq]
        refine ⟨hlt.1, ?_⟩
        have h3 : toI64 s.nSeg = s.nSeg := by unfold toI64; rw [if_pos (by omega)]
        rw [h3, hp.nrec]
        omega
      rw [hen] at this; simp at this

/-! Events -/

theorem P.congr {N : Nat} {δ : Int} {x : Option Nat} {s t : St} (h : P N δ x s) (h1 : t.inFlight = s.inFlight) (h2 : t.pending = s.pending)
    (h3 : t.retx = s.retx) (h4 : t.received = s.received) (h5 : t.next = s.next) (h6 : t.nSeg = s.nSeg) (h7 : t.nReceived = s.nReceived)
    (h8 : t.buffer = s.buffer) : P N δ x t := by
  obtain ⟨a, b, c, d, e, f, g, i, j⟩ := h
  constructor <;> simp only [h1, h2, h3, h4, h5, h6, h7, h8] <;> assumption

theorem unschedule_P {N : Nat} {δ : Int} {x : Option Nat} {s : St} {n : Nat} (h : P N δ x s) (hx : x = none ∨ x = some n) :
    P N δ (some n) (unschedule s n) := by
  obtain ⟨a, b, c, d, e, f, g, i, j⟩ := h
  have hc := isPend_core (unschedule_core s n)
  have hlen : (unschedule s n).pending.length = s.pending.length := by rw [length_core, unschedule_core, ← length_core]
  refine ⟨?_, ?_, ?_, d, e, f, ?_, i, j⟩
  · rw [hlen]; unfold cnt; rw [hc]; exact a
  · rw [hc]; exact b
  · intro hr q hq hqt
    obtain ⟨p, hp, h1, h2, _, _, h3⟩ := mem_unschedule hq
    rcases h3 with ⟨h3, _⟩ | ⟨h3, h4⟩
    · right; rw [h2, h3]
    · rw [h4] at hqt ⊢
      rcases c hr p hp hqt with h5 | h5
      · exact Or.inl h5
      · exfalso
        rcases hx with hx | hx
        · rw [hx] at h5; simp at h5
        · rw [hx] at h5; exact h3 (by simpa using h5)
  · intro q hq hns
    obtain ⟨p, hp, h1, _⟩ := mem_unschedule hq
    rw [h1]; exact g p hp hns

theorem filter_node_length {l : List Pend} (h : (l.map Pend.node).Nodup) {p : Pend} (hp : p ∈ l) :
    (l.filter (fun q => q.node ≠ p.node)).length + 1 = l.length := by
  induction l with
  | nil => simp at hp
  | cons x l ih =>
    rw [List.map_cons, List.nodup_cons] at h
    rcases List.mem_cons.1 hp with hpx | hp
    · subst hpx
      rw [List.filter_cons_of_neg (by simp)]
      have : l.filter (fun q => q.node ≠ p.node) = l := by
        rw [List.filter_eq_self]
        intro q hq
        simp only [ne_eq, decide_eq_true_eq]
        intro e
        exact h.1 (List.mem_map.2 ⟨q, hq, e⟩)
      rw [this]; simp
    · have hne : x.node ≠ p.node := by
        intro e; exact h.1 (List.mem_map.2 ⟨p, hp, e.symm⟩)
      rw [List.filter_cons_of_pos (by simp [hne]), List.length_cons, List.length_cons, ih h.2 hp]

theorem filter_length_add (l : List Pend) (f : Pend → Bool) : (l.filter f).length + (l.filter (fun x => !f x)).length = l.length := by
  induction l with
  | nil => rfl
  | cons x l ih =>
    rw [List.filter_cons, List.filter_cons]
    cases f x <;> simp <;> omega

theorem cnt_mono {a b : List Pend} (h : ∀ k, isPend a k = true → isPend b k = true) (q : List Nat) : cnt a q ≤ cnt b q := by
  induction q with
  | nil => simp [cnt]
  | cons k q ih =>
    unfold cnt at ih ⊢
    rw [List.filter_cons, List.filter_cons]
    by_cases ha : isPend a k = true
    · rw [if_pos ha, if_pos (h k ha)]; simp only [List.length_cons]; omega
    · rw [if_neg ha]
      split <;> (try simp only [List.length_cons]) <;> omega

theorem store_P {N : Nat} {s : St} {p : Pend} {c : Bytes} {cur : Nat} (h : Inv s) (hp : P N 1 (some p.node) s) (hi : s.cfg.inOrder = false)
    (hm : p ∈ s.pending) (hcur : s.received ≠ [] → cur = p.seg) (hb : hasKey cur s.buffer = false) (hN : cur ≤ N) :
    P N 0 none (store s p c cur) ∧ ((store s p c cur).received.length = 1 → (store s p c cur).next = 0 ∧ (store s p c cur).received = [cur]) := by
  have f := store_fields s p c cur hb
  obtain ⟨f1, f2, f3, f4, f5, f6, f7, f8, f9, f10, f11, f12, f13, f14, f15, f16, f17, f18, f19⟩ := f
  have hnot : cur ∉ s.received := by
    intro hmem
    rcases h.recd cur hmem with h1 | h1
    · rw [hb] at h1; simp at h1
    · rw [hi] at h1; simp at h1
  rw [if_neg hnot] at f4
  have hlen : (store s p c cur).pending.length + 1 = s.pending.length := by rw [f18]; exact filter_node_length (nodes_nodup h) hm
  have hmono : ∀ k, isPend (store s p c cur).pending k = true → isPend s.pending k = true := by
    intro k hk
    obtain ⟨q, hq, he⟩ := isPend_iff.1 hk
    rw [f18] at hq
    exact isPend_iff.2 ⟨q, (List.mem_filter.1 hq).1, he⟩
  have hnil : s.received = [] → (store s p c cur).pending = [] := by
    intro hr
    rw [f18, List.filter_eq_nil_iff]
    intro q hq
    have h1 := (h.recNil hr).2.1 _ (mem_core hq)
    have h2 := (h.recNil hr).2.1 _ (mem_core hm)
    simp only at h1 h2
    have := eq_of_nodup_map (segs_nodup h) hq hm (by rw [h1, h2])
    simp [this]
  obtain ⟨a, b, cc, d, e, f', g, i, j⟩ := hp
  refine ⟨⟨?_, ?_, ?_, ?_, ?_, ?_, ?_, ?_, ?_⟩, ?_⟩
  · have := cnt_mono hmono s.retx
    rw [f13, f7]; omega
  · rw [f4, f6, f10]
    intro _ k hk hks
    by_cases hr : s.received = []
    · rw [(h.recNil hr).2.2.1] at hk; omega
    · rcases b hr k hk hks with h1 | h1
      · left; simp [h1]
      · obtain ⟨q, hq, he⟩ := isPend_iff.1 h1
        by_cases hn : q.node = p.node
        · left
          have := eq_of_nodup_map (nodes_nodup h) hq hm hn
          rw [← he, this, ← hcur hr]; simp
        · right
          rw [f18]
          exact isPend_iff.2 ⟨q, List.mem_filter.2 ⟨hq, by simp [hn]⟩, he⟩
  · rw [f7]
    intro _ q hq hqt
    by_cases hr : s.received = []
    · rw [hnil hr] at hq; simp at hq
    · rw [f18, List.mem_filter] at hq
      rcases cc hr q hq.1 hqt with h1 | h1
      · exact Or.inl h1
      · have := hq.2
        simp only [ne_eq, decide_eq_true_eq] at this
        exact absurd (by simpa using h1) this
  · rw [f12, f4, d]; simp
  · rw [f4]
    intro k hk
    rcases List.mem_append.1 hk with hk | hk
    · exact e k hk
    · rw [List.mem_singleton.1 hk]; exact hN
  · rw [f10]; exact f'
  · rw [f10, f18]
    intro q hq; exact g q (List.mem_filter.1 hq).1
  · rw [f6, f7]; exact i
  · rw [f5, f4]
    intro k hk
    rw [hasKey_append, Bool.or_eq_true] at hk
    rcases hk with hk | hk
    · exact List.mem_append_left _ (j k hk)
    · simp only [hasKey, List.any_cons, List.any_nil, Bool.or_false, decide_eq_true_eq] at hk
      simp [hk]
  · rw [f4, f6]
    intro hl
    simp only [List.length_append, List.length_singleton] at hl
    have hr : s.received = [] := List.length_eq_zero_iff.1 (by omega)
    exact ⟨(h.recNil hr).2.2.1, by rw [hr]; rfl⟩

theorem takeFinal_P {N : Nat} {s : St} {d : Data} (hN : N + 1 < 2 ^ 63) (hp : P N 0 none s) (hd : ∀ f, d.final = some (some f) → f = N) :
    P N 0 none (takeFinal s d) := by
  unfold takeFinal
  split
  · rename_i f hf
    have hfN := hd f hf
    subst hfN
    have hmod : (f + 1) % 2 ^ 64 = f + 1 := Nat.mod_eq_of_lt (by omega)
    rw [hmod]
    split
    · rename_i hne
      have c := cancelExcess_fields { s with nSeg := f + 1 }
      generalize cancelExcess { s with nSeg := f + 1 } = t at c
      obtain ⟨c1, c2, c3, c4, c5, c6, c7, c8, c9, c10, c11, c12, c13, c14, c15, _⟩ := c
      simp only at c4 c5 c6 c7 c11 c13 c14 c15
      obtain ⟨a, b, cc, d, e, f', g, i, j⟩ := hp
      have hz : s.nSeg = 0 := by
        rcases f' with h1 | h1
        · exact h1
        · exact absurd h1.symm hne
      have hmono : ∀ k, isPend t.pending k = true → isPend s.pending k = true := by
        intro k hk
        obtain ⟨q, hq, he⟩ := isPend_iff.1 hk
        rw [c14] at hq
        exact isPend_iff.2 ⟨q, (List.mem_filter.1 hq).1, he⟩
      have hsplit : (s.pending.filter (fun p => p.seg ≥ f + 1)).length + t.pending.length = s.pending.length := by
        rw [c14]
        have h1 := filter_length_add s.pending (fun p => decide (p.seg < f + 1))
        have h2 : s.pending.filter (fun x => !decide (x.seg < f + 1)) = s.pending.filter (fun p => p.seg ≥ f + 1) := by
          apply List.filter_congr
          intro x _
          by_cases hx : x.seg < f + 1
          · have : ¬ (x.seg ≥ f + 1) := by omega
            simp [hx, this]
          · have : x.seg ≥ f + 1 := by omega
            simp [hx, this]
        rw [h2] at h1
        omega
      refine ⟨?_, ?_, ?_, by rw [c13, c4]; exact d, by rw [c4]; exact e, by rw [c11]; exact Or.inr rfl, ?_, by rw [c6, c7]; exact i, by rw [c5, c4]; exact j⟩
      · have := cnt_mono hmono s.retx
        rw [c15, c7]; omega
      · rw [c4, c6, c11]
        intro hr k hk hks
        rcases b hr k hk (Or.inl hz) with h1 | h1
        · exact Or.inl h1
        · right
          obtain ⟨q, hq, he⟩ := isPend_iff.1 h1
          rw [c14]
          exact isPend_iff.2 ⟨q, List.mem_filter.2 ⟨hq, by simp only [decide_eq_true_eq]; omega⟩, he⟩
      · rw [c4, c7, c14]
        intro hr q hq hqt
        exact cc hr q (List.mem_filter.1 hq).1 hqt
      · rw [c14, c11]
        intro q hq _
        simpa using (List.mem_filter.1 hq).2
    · exact hp
  · exact hp

theorem learn_P {N : Nat} {s : St} {d : Data} {cur : Nat} (hp : P N 0 none s)
    (h1 : s.received.length = 1 → s.next = 0 ∧ s.received = [cur]) : P N 0 none (learn s d cur) := by
  unfold learn
  split
  · rename_i hl
    obtain ⟨g1, g2⟩ := h1 hl
    obtain ⟨a, b, cc, dd, e, f', g, i, j⟩ := hp
    refine ⟨a, ?_, cc, dd, e, f', g, ?_, j⟩
    · intro hr k hk hks
      simp only at hk
      split at hk
      · left
        show k ∈ s.received
        rw [g2]
        have : k = 0 := by omega
        simp [this]; omega
      · omega
    · intro k hk
      have := i k hk
      simp only
      split <;> omega
  · exact hp

theorem success_P {N : Nat} {s : St} {v : Val} {w : Nat} {p : Pend} {cur : Nat} (hN : N + 1 < 2 ^ 63) (h : Inv s) (hp : P N 1 (some p.node) s) (hi : s.cfg.inOrder = false)
    (hs : s.stopped = false) (hn : NoTerm s.log) (hm : p ∈ s.pending) (hvn : v.node = p.node) (hrec : Obs.received v.data ∈ s.log) (hseg : v.data.seg = some cur)
    (hcur : s.received ≠ [] → cur = p.seg) (hcN : cur ≤ N) (hd : ∀ f, v.data.final = some (some f) → f = N) :
    (success s v w false).stopped = true ∨ (P N 0 none (success s v w false) ∧ T (success s v w false)) := by
  unfold success
  rw [if_neg (by rw [hs]; simp)]
  have hfd : s.pending.find? (fun p => p.node = v.node) = some p := by
    cases hf : s.pending.find? (fun p => p.node = v.node) with
    | none => exact absurd (by simpa using hvn.symm) (List.find?_eq_none.1 hf p hm)
    | some q =>
      obtain ⟨q1, q2⟩ := find_mem hf
      simp only [decide_eq_true_eq] at q2
      rw [eq_of_nodup_map (nodes_nodup h) q1 hm (by rw [q2, hvn])]
  rw [hfd]
  simp only
  have hc0 : v.data.seg.getD 0 = cur := by rw [hseg]; rfl
  rw [hc0]
  have hb : hasKey cur s.buffer = false :=
    stored_fresh h (v := v) (p := p) (Or.inr (fun hr => by rw [hseg, hcur hr])) hm hvn.symm hseg
  obtain ⟨i1, i2⟩ := store_inv h hn hm hcur hseg hrec hb
  obtain ⟨j1, j2⟩ := store_P (c := v.data.content) h hp hi hm hcur hb hcN
  have f := store_fields s p v.data.content cur hb
  have e : signal (store s p v.data.content cur) (.validated v.data) false = { store s p v.data.content cur with log := s.log ++ [.validated v.data] } := by
    unfold signal; rw [if_neg (by simp), f.1]
  rw [e]
  generalize hs1 : ({ store s p v.data.content cur with log := s.log ++ [.validated v.data] } : St) = s1 at *
  have k1 : P N 0 none s1 := by subst hs1; exact j1.congr rfl rfl rfl rfl rfl rfl rfl rfl
  have k2 : s1.received ≠ [] := by subst hs1; exact i2
  have k3 : s1.received.length = 1 → s1.next = 0 ∧ s1.received = [cur] := by subst hs1; exact j2
  have k4 : s1.cfg = s.cfg := by subst hs1; exact f.2.2.2.2.2.2.2.2.1
  have k5 : NoTerm s1.log := by subst hs1; exact noTerm_snoc hn rfl
  unfold afterStored
  split
  · left; exact (error_fields _ _).2.2.2
  · have c := takeFinal_fields s1 v.data
    have e := deliverFrom_fields (takeFinal s1 v.data) cur
    have g1 := takeFinal_inv (d := v.data) i1
    have g3 := deliverFrom_inv (cur := cur) g1 (by rw [c.2.2.2.1]; exact k2) (by rw [c.1]; exact k5)
    have hdf : deliverFrom (takeFinal s1 v.data) cur = takeFinal s1 v.data := by
      unfold deliverFrom
      rw [if_neg]
      rw [c.2.2.2.2.2.2.2.2.1, k4, hi]; simp
    rw [hdf] at g3 ⊢
    have hr3 : (takeFinal s1 v.data).received ≠ [] := by rw [c.2.2.2.1]; exact k2
    have l := learn_fields (takeFinal s1 v.data) v.data cur
    apply fetchWindow_P hN (learn_inv g3 hr3)
    · apply learn_P (takeFinal_P hN k1 hd)
      rw [c.2.2.2.1, c.2.2.2.2.2.1]; exact k3
    · rw [l.2.1]; exact hr3
    · rw [l.2.2.2.1, c.2.2.2.2.2.2.2.2.1, k4]; exact hi

theorem cnt_snoc {a : List Pend} {q : List Nat} {k : Nat} (h : isPend a k = true) : cnt a (q ++ [k]) = cnt a q + 1 := by
  unfold cnt
  rw [List.filter_append, List.filter_cons_of_pos h]; simp

theorem afterLoss_P {N : Nat} {s : St} {k : Kind} {w : Nat} {p : Pend} (hN : N + 1 < 2 ^ 63) (h : Inv s) (hp : P N 1 none s ∨ P N 1 (some p.node) s)
    (hi : s.cfg.inOrder = false) (ht : lossTarget s k = some p) :
    (afterLoss s k w).stopped = true ∨ (P N 0 none (afterLoss s k w) ∧ T (afterLoss s k w)) := by
  have hpm := lossTarget_mem ht
  have hp1 : P N 1 (some p.node) (unschedule s p.node) := by
    rcases hp with hp | hp
    · exact unschedule_P hp (Or.inl rfl)
    · exact unschedule_P hp (Or.inr rfl)
  have h1 := unschedule_inv (n := p.node) h
  obtain ⟨q, hq, hqs, hqn, _⟩ := unschedule_mem (n := p.node) hpm
  unfold afterLoss
  split
  · left; exact (error_fields _ _).2.2.2
  · rw [ht]
    simp only
    have hu : ∀ q' ∈ (unschedule s p.node).pending, q'.node = p.node → q'.seg = p.seg := by
      intro q' hq' hn'
      rw [eq_of_nodup_map (nodes_nodup h1) hq' hq (by rw [hn', hqn]), hqs]
    have hi1 : (unschedule s p.node).cfg.inOrder = false := hi
    generalize unschedule s p.node = s1 at *
    split
    · rename_i hr
      right
      have hz : isPend s1.pending 0 = true := by
        have := (h1.recNil hr).2.1 _ (mem_core hq)
        exact isPend_iff.2 ⟨q, hq, this⟩
      have f := send_fields s1 0 .base true
      obtain ⟨g1, g2⟩ := send_retx_timer (kd := .base) hz
      have hc := send_core_retx s1 0 .base
      refine ⟨?_, g2⟩
      generalize send s1 0 .base true = s2 at *
      obtain ⟨f1, f2, f3, f4, f5, f6, f7, f8, f9, f10, f11, f12, f13, f14, _⟩ := f
      obtain ⟨a, b, cc, dd, e, f', g, i, j⟩ := hp1
      refine ⟨?_, ?_, ?_, by rw [f13, f3]; exact dd, by rw [f3]; exact e, by rw [f10]; exact f', ?_, by rw [f6, f5]; exact i, by rw [f4, f3]; exact j⟩
      · rw [f14, f6, length_core, hc, ← length_core]
        unfold cnt at a ⊢
        rw [isPend_core hc]
        omega
      · intro hr'; rw [f3] at hr'; exact absurd hr hr'
      · intro hr'; rw [f3] at hr'; exact absurd hr hr'
      · rw [f10]
        intro q' hq' hns
        have : (q'.seg, q'.node) ∈ core s1 := by rw [← hc]; exact mem_core hq'
        obtain ⟨p', hpm', he⟩ := List.mem_map.1 this
        have h1 := g p' hpm' hns
        have h2 : p'.seg = q'.seg := by simpa using congrArg Prod.fst he
        omega
    · rename_i hr
      apply fetchWindow_P hN
      · exact h1.window hr rfl rfl rfl rfl rfl rfl (Nat.le_refl _) rfl rfl
      · obtain ⟨a, b, cc, dd, e, f', g, i, j⟩ := hp1
        refine ⟨?_, b, ?_, dd, e, f', g, ?_, j⟩
        · show s1.inFlight + (cnt s1.pending (s1.retx ++ [p.seg]) : Nat) + 0 ≤ s1.pending.length
          rw [cnt_snoc (isPend_iff.2 ⟨q, hq, hqs⟩)]
          omega
        · intro hr' q' hq' hqt
          left
          show q'.seg ∈ s1.retx ++ [p.seg]
          rcases cc hr' q' hq' hqt with h2 | h2
          · exact List.mem_append_left _ h2
          · rw [hu q' hq' (by simpa using h2)]; simp
        · intro k hk
          rcases List.mem_append.1 hk with hk | hk
          · exact i k hk
          · rw [List.mem_singleton.1 hk]
            have := (h1.fresh hr _ (mem_core hq)).2
            rw [← hqs]; exact this
      · exact hr
      · exact hi1

/-- At the end of an event. -/
def Going (N : Nat) (s : St) : Prop := s.cfg.inOrder = false ∧ (s.stopped = true ∨ (P N 0 none s ∧ T s))

theorem P.shift {N : Nat} {δ : Int} {x : Option Nat} {s t : St} (h : P N δ x s) (δ' : Int) (h1 : t.inFlight + δ' = s.inFlight + δ) (h2 : t.pending = s.pending)
    (h3 : t.retx = s.retx) (h4 : t.received = s.received) (h5 : t.next = s.next) (h6 : t.nSeg = s.nSeg) (h7 : t.nReceived = s.nReceived)
    (h8 : t.buffer = s.buffer) : P N δ' x t := by
  obtain ⟨a, b, c, d, e, f, g, i, j⟩ := h
  refine ⟨?_, by rw [h4, h5, h6, h2]; exact b, by rw [h4, h2, h3]; exact c, by rw [h7, h4]; exact d, by rw [h4]; exact e, by rw [h6]; exact f,
    by rw [h2, h6]; exact g, by rw [h3, h5]; exact i, by rw [h8, h4]; exact j⟩
  rw [h2, h3]; omega

theorem onData_going {N : Nat} {s : St} {iid : Nat} {d : Data} {ok : Bool} {w : Nat} (hN : N + 1 < 2 ^ 63) (h : Good s) (hl : GoodL s) (hd : Def s) (hg : Going N s)
    (h1 : ∀ k, d.seg = some k → k ≤ N) (h2 : ∀ f, d.final = some (some f) → f = N) : 
    (onData s iid d (some ok) w false false).stopped = true ∨
      (P N 0 none (onData s iid d (some ok) w false false) ∧ T (onData s iid d (some ok) w false false)) := by
  obtain ⟨hi, hg⟩ := hg
  obtain ⟨h, hf, ht, ha⟩ := h
  unfold onData
  split
  · exact hg
  · rename_i l hfl
    split
    · rename_i hans
      simp only
      split
      · rename_i hs; exact Or.inl hs
      · rename_i hs
        have hs' : s.stopped = false := by simpa using hs
        have hn := term_noTerm ht hs'
        obtain ⟨hP, hT⟩ : P N 0 none s ∧ T s := by
          rcases hg with hg | hg
          · rw [hs'] at hg; simp at hg
          · exact hg
        split
        · left; exact (error_fields _ _).2.2.2
        · rename_i k hk
          split
          · -- the Interest's segment is pending, so this cannot happen
            rename_i hnone
            exfalso
            obtain ⟨q, hq, _, hqk⟩ := hl.1.live l (List.mem_of_find?_eq_some hfl)
            have hkind := hl.1.kind q hq
            unfold dataTarget at hnone
            by_cases hr : s.received = []
            · have h0 : ∀ p ∈ s.pending, p.seg = 0 := fun p hp => (h.recNil hr).2.1 _ (mem_core hp)
              rw [if_pos hr] at hnone
              unfold first at hnone
              have := List.find?_eq_none.1 hnone q hq
              apply this
              rw [List.all_eq_true]
              intro q' hq'
              rw [h0 q hq]; simp
            · rw [if_neg hr] at hnone
              rw [if_neg hr, hqk] at hkind
              rw [hkind] at hans
              simp only [answers, Bool.and_eq_true, decide_eq_true_eq] at hans
              rw [hk] at hans
              have hks : k = q.seg := by simpa using hans.2
              exact absurd (by simp [hks]) (List.find?_eq_none.1 hnone q hq)
          · rename_i p hp
            obtain ⟨p1, p2⟩ := dataTarget_mem hp
            rw [validate_some _ _ _ _ _ (by exact hd.val)]
            simp only
            split
            · have i1 : Inv { unschedule { s with live := s.live.filter (fun x => x.iid ≠ iid), inFlight := s.inFlight - 1 } p.node with log := s.log ++ [.received d] } :=
                (Inv.log (s := unschedule { s with live := s.live.filter (fun x => x.iid ≠ iid), inFlight := s.inFlight - 1 } p.node)
                  (unschedule_inv (h.congr rfl rfl rfl rfl rfl rfl rfl rfl rfl rfl)) ⟨hn, trivial⟩ (by simp [delivered, List.filterMap_append]))
              have i2 : P N 1 (some p.node) (unschedule { s with live := s.live.filter (fun x => x.iid ≠ iid), inFlight := s.inFlight - 1 } p.node) :=
                unschedule_P (hP.shift 1 (by simp only; omega) rfl rfl rfl rfl rfl rfl rfl) (Or.inl rfl)
              obtain ⟨q, hq, hqs, hqn, _⟩ := unschedule_mem (s := { s with live := s.live.filter (fun x => x.iid ≠ iid), inFlight := s.inFlight - 1 }) (n := p.node) p1
              generalize ht2 : ({ unschedule { s with live := s.live.filter (fun x => x.iid ≠ iid), inFlight := s.inFlight - 1 } p.node with log := s.log ++ [.received d], nextId := s.nextId + 1 } : St) = t
              have t1 : Inv t := by
                subst ht2
                obtain ⟨a, b, c, dd, e, f, g, i, j, kk, l, m, n⟩ := i1
                refine ⟨a, b, c, ?_, ?_, f, g, i, j, kk, l, m, n⟩
                · intro q hq; have := dd q hq; show q.2 < s.nextId + 1; exact Nat.lt_succ_of_lt this
                · intro v hv; have := e v hv; show v.node < s.nextId + 1; exact Nat.lt_succ_of_lt this
              have t2 : P N 1 (some q.node) t := by
                rw [hqn]; subst ht2; exact i2.congr rfl rfl rfl rfl rfl rfl rfl rfl
              have hqt : q ∈ t.pending := by subst ht2; exact hq
              refine success_P (v := ⟨s.nextId, p.node, d⟩) (p := q) (cur := k) hN t1 t2 ?_ ?_ ?_ hqt hqn.symm ?_ hk ?_ (h1 k hk) h2
              · subst ht2; exact hi
              · subst ht2; exact hs'
              · subst ht2; exact noTerm_snoc hn rfl
              · subst ht2; simp
              · subst ht2
                intro hr
                rw [hqs]
                exact (p2 hr).symm
            · left; exact (error_fields _ _).2.2.2
    · exact hg

theorem onNack_going {N : Nat} {s : St} {iid : Nat} {g : Bool} {w : Nat} (hN : N + 1 < 2 ^ 63) (h : Good s) (hl : GoodL s) (hd : Def s) (hg : Going N s) :
    (onNack s iid g w false).stopped = true ∨ (P N 0 none (onNack s iid g w false) ∧ T (onNack s iid g w false)) := by
  obtain ⟨hi, hg⟩ := hg
  obtain ⟨h, hf, ht, ha⟩ := h
  unfold onNack
  split
  · exact hg
  · rename_i l hfl
    simp only
    split
    · rename_i hs; exact Or.inl hs
    · rename_i hs
      have hs' : s.stopped = false := by simpa using hs
      have hn := term_noTerm ht hs'
      obtain ⟨hP, hT⟩ : P N 0 none s ∧ T s := by
        rcases hg with hg | hg
        · rw [hs'] at hg; simp at hg
        · exact hg
      have h' : Inv { s with live := s.live.filter (fun x => x.iid ≠ iid) } := h.congr rfl rfl rfl rfl rfl rfl rfl rfl rfl rfl
      have l' : L { s with live := s.live.filter (fun x => x.iid ≠ iid) } := hl.1.congr rfl rfl rfl List.filter_sublist rfl rfl (List.Sublist.refl _)
      have g1 : Inv { s with live := s.live.filter (fun x => x.iid ≠ iid), log := s.log ++ [.nacked] } :=
        Inv.log h' ⟨hn, trivial⟩ (by simp [delivered, List.filterMap_append])
      have e : signal { s with live := s.live.filter (fun x => x.iid ≠ iid) } .nacked false = { s with live := s.live.filter (fun x => x.iid ≠ iid), log := s.log ++ [.nacked] } := rfl
      rw [e]
      generalize ht2 : ({ s with live := s.live.filter (fun x => x.iid ≠ iid), log := s.log ++ [.nacked], inFlight := s.inFlight - 1 } : St) = t
      have t1 : Inv t := by subst ht2; exact g1.congr rfl rfl rfl rfl rfl rfl rfl rfl rfl rfl
      have t2 : L t := by subst ht2; exact l'.congr rfl rfl rfl (List.Sublist.refl _) rfl rfl (List.Sublist.refl _)
      have td : Def t := by subst ht2; exact hd.mk' rfl rfl rfl
      have tp : t.pending = s.pending := by subst ht2; rfl
      have tP : P N 1 none t := by subst ht2; exact hP.shift 1 (by simp only; omega) rfl rfl rfl rfl rfl rfl rfl
      have ti : t.cfg.inOrder = false := by subst ht2; exact hi
      have key : (if g = true then afterLoss t l.kind w else error t 4).stopped = true ∨
          (P N 0 none (if g = true then afterLoss t l.kind w else error t 4) ∧ T (if g = true then afterLoss t l.kind w else error t 4)) := by
        split
        · obtain ⟨p, hp, _, hk⟩ := hl.1.live l (List.mem_of_find?_eq_some hfl)
          have hlt := lossTarget_some t1 t2 td.base (by rw [tp]; exact hp) hk
          exact afterLoss_P hN t1 (Or.inl tP) ti hlt
        · left; exact (error_fields _ _).2.2.2
      subst ht2
      exact key

theorem onTimeout_going {N : Nat} {s : St} {n w : Nat} (hN : N + 1 < 2 ^ 63) (h : Good s) (hl : GoodL s) (hd : Def s) (hg : Going N s) :
    (onTimeout s n w false).stopped = true ∨ (P N 0 none (onTimeout s n w false) ∧ T (onTimeout s n w false)) := by
  obtain ⟨hi, hg⟩ := hg
  obtain ⟨h, hf, ht, ha⟩ := h
  unfold onTimeout
  split
  · exact hg
  · rename_i p hp
    obtain ⟨hpm, _⟩ := find_mem hp
    simp only
    split
    · rename_i hs; exact Or.inl hs
    · rename_i hs
      have hs' : s.stopped = false := by simpa [unschedule] using hs
      have hn := term_noTerm ht hs'
      obtain ⟨hP, hT⟩ : P N 0 none s ∧ T s := by
        rcases hg with hg | hg
        · rw [hs'] at hg; simp at hg
        · exact hg
      have h' := unschedule_inv (n := p.node) h
      have l' := unschedule_L (n := p.node) hl.1
      have g1 : Inv { unschedule s p.node with log := s.log ++ [.timedOut] } :=
        Inv.log (s := unschedule s p.node) h' ⟨hn, trivial⟩ (by simp [delivered, List.filterMap_append])
      have e : signal (unschedule s p.node) .timedOut false = { unschedule s p.node with log := s.log ++ [.timedOut] } := rfl
      rw [e]
      obtain ⟨q, hq, _, hqn, hk, _⟩ := unschedule_mem (n := p.node) hpm
      generalize ht2 : ({ unschedule s p.node with log := s.log ++ [.timedOut], inFlight := s.inFlight - 1 } : St) = t
      have t1 : Inv t := by subst ht2; exact g1.congr rfl rfl rfl rfl rfl rfl rfl rfl rfl rfl
      have t2 : L t := by subst ht2; exact l'.congr rfl rfl rfl (List.Sublist.refl _) rfl rfl (List.Sublist.refl _)
      have td : Def t := by subst ht2; exact hd.mk' rfl rfl rfl
      have tp : t.pending = (unschedule s p.node).pending := by subst ht2; rfl
      have tP : P N 1 (some q.node) t := by
        rw [hqn]; subst ht2
        exact (unschedule_P hP (Or.inl rfl)).shift 1 (by simp only [unschedule]; omega) rfl rfl rfl rfl rfl rfl rfl
      have ti : t.cfg.inOrder = false := by subst ht2; exact hi
      have hlt := lossTarget_some t1 t2 td.base (by rw [tp]; exact hq) hk
      have key := afterLoss_P (w := w) hN t1 (Or.inr tP) ti hlt
      subst ht2
      exact key

theorem start_going (N : Nat) (cfg : Cfg) (hc : cfg.inOrder = false) : Going N (start cfg) := by
  have : start cfg = ⟨cfg, false, 1, 0, 0, 0, 0, [], 0, [], [⟨0, 0, 0, .base, true⟩], [], [⟨0, .base⟩], [], 1, 0, 0, [], false⟩ := rfl
  rw [this]
  refine ⟨hc, Or.inr ⟨?_, ?_⟩⟩
  · constructor <;> simp [cnt, hasKey]
  · exact ⟨⟨0, 0, 0, .base, true⟩, by simp, rfl⟩

theorem start_def (cfg : Cfg) (hc : cfg.baseSeg = none) : Def (start cfg) := by
  have : start cfg = ⟨cfg, false, 1, 0, 0, 0, 0, [], 0, [], [⟨0, 0, 0, .base, true⟩], [], [⟨0, .base⟩], [], 1, 0, 0, [], false⟩ := rfl
  rw [this]
  exact ⟨rfl, rfl, hc⟩

theorem step_cfg (s : St) (e : Ev) : (step s e).cfg = s.cfg := by
  cases e with
  | data i d v w a b =>
    simp only [step]
    unfold onData
    split
    · rfl
    · split
      · simp only
        split
        · rfl
        · split
          · exact (error_fields _ _).2.1
          · split
            · rfl
            · unfold validate
              simp only
              split
              · exact (signal_fields _ _ _).2.2.2.2.2.2.2.2.1
              · rw [result_cfg]; exact (signal_fields _ _ _).2.2.2.2.2.2.2.2.1
      · rfl
  | result v ok w a => exact result_cfg _ _ _ _ _
  | nack i g w a =>
    simp only [step]
    unfold onNack
    split
    · rfl
    · simp only
      split
      · rfl
      · split
        · rw [(afterLoss_fields _ _ _).2]; exact (signal_fields _ _ _).2.2.2.2.2.2.2.2.1
        · rw [(error_fields _ _).2.1]; exact (signal_fields _ _ _).2.2.2.2.2.2.2.2.1
  | timeout n w a =>
    simp only [step]
    unfold onTimeout
    split
    · rfl
    · simp only
      split
      · rfl
      · rw [(afterLoss_fields _ _ _).2]; exact (signal_fields _ _ _).2.2.2.2.2.2.2.2.1
  | lost i => rfl
  | stop => exact (stop_fields _).2.2.2.2.2.2.2.2.1
  | advance dt => rfl

theorem step_going {N : Nat} {s : St} {e : Ev} (hN : N + 1 < 2 ^ 63) (h : Good s) (hl : GoodL s) (hd : Def s) (hg : Going N s)
    (hc : Calm e) (hcons : Consistent N e) : Going N (step s e) := by
  refine ⟨by rw [step_cfg]; exact hg.1, ?_⟩
  cases e with
  | data i d v w a b =>
    obtain ⟨hv, rfl, rfl⟩ := hc
    cases v with
    | none => exact absurd rfl hv
    | some ok => exact onData_going hN h hl hd hg hcons.1 hcons.2
  | result v ok w a =>
    have : step s (.result v ok w a) = s := by
      simp only [step, result, hd.val, List.find?_nil]
    rw [this]; exact hg.2
  | nack i g w a => obtain rfl : a = false := hc; exact onNack_going hN h hl hd hg
  | timeout n w a => obtain rfl : a = false := hc; exact onTimeout_going hN h hl hd hg
  | lost i =>
    rcases hg.2 with h1 | h1
    · exact Or.inl h1
    · exact Or.inr ⟨h1.1.congr rfl rfl rfl rfl rfl rfl rfl rfl, h1.2⟩
  | stop => left; exact stop_stopped s
  | advance dt =>
    rcases hg.2 with h1 | h1
    · exact Or.inl h1
    · exact Or.inr ⟨h1.1.congr rfl rfl rfl rfl rfl rfl rfl rfl, h1.2⟩

theorem run_going {N : Nat} {s : St} {evs : List Ev} (hN : N + 1 < 2 ^ 63) (h : Good s) (hl : GoodL s) (hd : Def s) (hg : Going N s)
    (he : ValidEvs evs) (hc : ∀ e ∈ evs, Calm e) (hcons : ∀ e ∈ evs, Consistent N e) : Going N (run s evs) := by
  induction evs generalizing s with
  | nil => exact hg
  | cons e evs ih =>
    have he1 : ValidEvs [e] := by
      intro i d v w a b hm
      rw [List.mem_singleton] at hm
      exact he i d v w a b (by simp [hm])
    apply ih (step_good h he1) (step_L h hl he1) (step_def h hl hd (hc e (by simp))) (step_going hN h hl hd hg (hc e (by simp)) (hcons e (by simp)))
    · intro i d v w a b hm
      exact he i d v w a b (by simp [hm])
    · exact fun e he => hc e (by simp [he])
    · exact fun e he => hcons e (by simp [he])

end Ndn.Fetch
