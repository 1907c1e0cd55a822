import Verif.Fetch.Lemmas
/- Interests in the face and pending segments correspond, if cancelled Interests are removed at once. -/
namespace Ndn.Fetch
open Spec

structure L (s : St) : Prop where
  late : s.cfg.late = false
  iidNodup : (s.pending.map Pend.iid).Nodup
  iidLt : ∀ p ∈ s.pending, p.iid < s.nextId
  live : ∀ l ∈ s.live, ∃ p ∈ s.pending, p.iid = l.iid ∧ p.kind = l.kind
  kind : ∀ p ∈ s.pending, p.kind = if s.received = [] then .base else .exact s.versioned p.seg
  val : ∀ v ∈ s.validating, s.received ≠ [] → ∀ p ∈ s.pending, p.node = v.node → v.data.obj = s.versioned

/-- All validated packets are of one object. -/
def Obj (s : St) : Prop := ∀ d, Obs.validated d ∈ s.log → d.obj = s.versioned ∧ s.received ≠ []

theorem L.congr {s t : St} (h : L s) (h1 : t.cfg = s.cfg) (h2 : t.pending = s.pending) (h3 : t.nextId = s.nextId)
    (h4 : t.live.Sublist s.live) (h5 : t.received = s.received) (h6 : t.versioned = s.versioned)
    (h7 : t.validating.Sublist s.validating) : L t := by
  obtain ⟨a, b, c, d, e, f⟩ := h
  refine ⟨by rw [h1]; exact a, by rw [h2]; exact b, by rw [h2, h3]; exact c, ?_, by rw [h2, h5, h6]; exact e, ?_⟩
  · rw [h2]; exact fun l hl => d l (h4.subset hl)
  · rw [h2, h5, h6]; exact fun v hv => f v (h7.subset hv)

theorem stop_L {s : St} (h : L s) : L (stop s) := by
  unfold stop
  split
  · exact h
  · obtain ⟨a, b, c, d, e, f⟩ := h
    have hl : (cancel s (s.pending.map Pend.iid)).live = [] := by
      unfold cancel
      rw [if_neg (by rw [a]; simp)]
      simp only
      rw [List.filter_eq_nil_iff]
      intro l hl
      obtain ⟨p, hp, hi, _⟩ := d l hl
      simp only [decide_eq_true_eq, Decidable.not_not]
      exact List.mem_map.2 ⟨p, hp, hi⟩
    refine ⟨by simp [a], by simp, by simp, ?_, by simp, by simp⟩
    simp only
    rw [hl]; simp

theorem log_L {s : St} {o : Obs} (h : L s) : L { s with log := s.log ++ [o] } :=
  h.congr rfl rfl rfl (List.Sublist.refl _) rfl rfl (List.Sublist.refl _)

theorem signal_L {s : St} {o : Obs} {b : Bool} (h : L s) : L (signal s o b) := by
  unfold signal; split
  · exact stop_L (log_L h)
  · exact log_L h

theorem error_L {s : St} {c : Nat} (h : L s) : L (error s c) := stop_L (log_L h)

theorem unschedule_L {s : St} {n : Nat} (h : L s) : L (unschedule s n) := by
  obtain ⟨a, b, c, d, e, f⟩ := h
  have hm : ∀ q ∈ (unschedule s n).pending, ∃ p ∈ s.pending, q.iid = p.iid ∧ q.seg = p.seg ∧ q.kind = p.kind ∧ q.node = p.node := by
    intro q hq
    simp only [unschedule] at hq
    obtain ⟨p, hp, rfl⟩ := List.mem_map.1 hq
    exact ⟨p, hp, by split <;> simp⟩
  have hm' : ∀ p ∈ s.pending, ∃ q ∈ (unschedule s n).pending, q.iid = p.iid ∧ q.seg = p.seg ∧ q.kind = p.kind ∧ q.node = p.node := by
    intro p hp
    refine ⟨_, List.mem_map.2 ⟨p, hp, rfl⟩, ?_⟩
    split <;> simp
  refine ⟨a, ?_, ?_, ?_, ?_, ?_⟩
  · have : (unschedule s n).pending.map Pend.iid = s.pending.map Pend.iid := by
      simp only [unschedule, List.map_map]
      apply List.map_congr_left
      intro p _
      simp only [Function.comp]
      split <;> rfl
    rw [this]; exact b
  · intro q hq
    obtain ⟨p, hp, h1, _⟩ := hm q hq
    rw [h1]; exact c p hp
  · intro l hl
    obtain ⟨p, hp, h1, h2⟩ := d l hl
    obtain ⟨q, hq, h3, _, h4, _⟩ := hm' p hp
    exact ⟨q, hq, by rw [h3, h1], by rw [h4, h2]⟩
  · intro q hq
    obtain ⟨p, hp, _, h2, h3, _⟩ := hm q hq
    rw [h3, h2]; exact e p hp
  · intro v hv hr q hq hn
    obtain ⟨p, hp, _, _, _, h4⟩ := hm q hq
    exact f v hv hr p hp (by rw [← h4]; exact hn)

/-! Sending -/

theorem send_retx_eq (s : St) (seg : Nat) (k : Kind) (p : Pend) (hp : s.pending.find? (fun p => p.seg = seg) = some p) :
    (send s seg k true).pending = s.pending.map (fun q => if q.seg = seg then { q with iid := s.nextId, kind := k, timer := true } else q) ∧
    (send s seg k true).live = (if s.cfg.late then s.live ++ [Live.mk s.nextId k] else (s.live ++ [Live.mk s.nextId k]).filter (fun l => l.iid ≠ p.iid)) ∧
    (send s seg k true).ub = s.ub := by
  unfold send
  simp only [if_true, hp]
  refine ⟨?_, ?_, by simp⟩
  · first | rfl | trivial
  · simp only [cancel]
    split <;> simp

theorem send_new_eq (s : St) (seg : Nat) (k : Kind) :
    (send s seg k false).ub = s.ub ∧
    (s.pending.any (fun p => p.seg = seg) = false →
      (send s seg k false).pending = s.pending ++ [⟨seg, s.nextId, s.nextId, k, true⟩] ∧
      (send s seg k false).live = s.live ++ [⟨s.nextId, k⟩]) ∧
    (s.pending.any (fun p => p.seg = seg) = true →
      (send s seg k false).pending = s.pending ∧
      (send s seg k false).live = (if s.cfg.late then s.live ++ [Live.mk s.nextId k] else (s.live ++ [Live.mk s.nextId k]).filter (fun l => l.iid ≠ s.nextId))) := by
  unfold send
  simp only [Bool.false_eq_true, if_false]
  refine ⟨?_, ?_, ?_⟩
  · split <;> simp
  · intro h; rw [if_neg (by rw [h]; simp)]; exact ⟨rfl, rfl⟩
  · intro h
    rw [if_pos h]
    refine ⟨by simp, ?_⟩
    simp only [cancel]
    split <;> simp

theorem any_seg {l : List Pend} {seg : Nat} (h : l.any (fun p => p.seg = seg) = true) :
    ∃ p, l.find? (fun p => p.seg = seg) = some p := by
  cases hf : l.find? (fun p => p.seg = seg) with
  | some p => exact ⟨p, rfl⟩
  | none =>
    rw [List.find?_eq_none] at hf
    simp only [List.any_eq_true] at h
    obtain ⟨p, hp, h2⟩ := h
    exact absurd h2 (hf p hp)

theorem segs_nodup {s : St} (h : Inv s) : (s.pending.map Pend.seg).Nodup := by
  have := h.segNodup
  unfold core at this
  rw [List.map_map] at this
  exact this

theorem nodes_nodup {s : St} (h : Inv s) : (s.pending.map Pend.node).Nodup := by
  have := h.nodeNodup
  unfold core at this
  rw [List.map_map] at this
  exact this

theorem send_L_retx {s : St} {seg : Nat} {k : Kind} (h : Inv s) (hl : L s)
    (hp : s.pending.any (fun p => p.seg = seg) = true)
    (hk : k = if s.received = [] then .base else .exact s.versioned seg) :
    L (send s seg k true) ∧ (send s seg k true).ub = s.ub := by
  obtain ⟨p, hf⟩ := any_seg hp
  obtain ⟨e1, e2, e3⟩ := send_retx_eq s seg k p hf
  obtain ⟨hpm, hps⟩ := find_mem hf
  simp only [decide_eq_true_eq] at hps
  refine ⟨?_, e3⟩
  obtain ⟨f1, f2, f3, f4, f5, f6, f7, f8, f9, f10, f11, f12, _⟩ := send_fields s seg k true
  have huniq : ∀ q ∈ s.pending, q.seg = seg → q = p := by
    intro q hq hs
    exact eq_of_nodup_map (segs_nodup h) hq hpm (by rw [hs, hps])
  obtain ⟨a, b, c, d, e, f⟩ := hl
  refine ⟨by rw [f8]; exact a, ?_, ?_, ?_, ?_, ?_⟩
  · rw [e1, List.map_map]
    -- the new number replaces the old one
    have : ∀ (l : List Pend), (∀ q ∈ l, q.iid < s.nextId) → (l.map Pend.iid).Nodup → (l.map Pend.seg).Nodup →
        (l.map (Pend.iid ∘ fun q => if q.seg = seg then { q with iid := s.nextId, kind := k, timer := true } else q)).Nodup ∧
        (∀ x ∈ l.map (Pend.iid ∘ fun q => if q.seg = seg then { q with iid := s.nextId, kind := k, timer := true } else q), (x = s.nextId ∧ seg ∈ l.map Pend.seg) ∨ x ∈ l.map Pend.iid) := by
      intro l
      induction l with
      | nil => intro _ _ _; simp
      | cons q l ih =>
        intro h1 h2 h3
        rw [List.map_cons, List.nodup_cons] at h2 h3
        obtain ⟨i1, i2⟩ := ih (fun q hq => h1 q (by simp [hq])) h2.2 h3.2
        constructor
        · rw [List.map_cons, List.nodup_cons]
          refine ⟨?_, i1⟩
          intro hm
          simp only [Function.comp] at hm
          by_cases hq : q.seg = seg
          · rw [if_pos hq] at hm
            rcases i2 _ hm with ⟨_, i3⟩ | i3
            · rw [← hq] at i3; exact h3.1 i3
            · obtain ⟨q', hq', he⟩ := List.mem_map.1 i3
              have := h1 q' (by simp [hq'])
              simp only at he
              omega
          · rw [if_neg hq] at hm
            rcases i2 _ hm with ⟨i3, _⟩ | i3
            · have := h1 q (by simp); omega
            · exact h2.1 i3
        · intro x hx
          rw [List.map_cons] at hx
          rcases List.mem_cons.1 hx with hx | hx
          · simp only [Function.comp] at hx
            by_cases hq : q.seg = seg
            · rw [if_pos hq] at hx
              left; exact ⟨hx, by simp [hq]⟩
            · rw [if_neg hq] at hx
              right; simp [hx]
          · rcases i2 x hx with ⟨i3, i4⟩ | i3
            · left; exact ⟨i3, by simp only [List.map_cons, List.mem_cons]; exact Or.inr i4⟩
            · right; simp only [List.map_cons, List.mem_cons]; exact Or.inr i3
    exact (this s.pending c b (segs_nodup h)).1
  · rw [e1, f12]
    intro q hq
    obtain ⟨q', hq', rfl⟩ := List.mem_map.1 hq
    have := c q' hq'
    split
    · simp
    · omega
  · rw [e2, if_neg (by rw [a]; simp), e1]
    intro l hl
    rw [List.mem_filter] at hl
    obtain ⟨h1, h2⟩ := hl
    simp only [ne_eq, decide_eq_true_eq] at h2
    rcases List.mem_append.1 h1 with h1 | h1
    · obtain ⟨q, hq, hqi, hqk⟩ := d l h1
      refine ⟨q, ?_, hqi, hqk⟩
      refine List.mem_map.2 ⟨q, hq, ?_⟩
      rw [if_neg]
      intro hs
      rw [huniq q hq hs] at hqi
      exact h2 hqi.symm
    · rw [List.mem_singleton.1 h1]
      refine ⟨{ p with iid := s.nextId, kind := k, timer := true }, List.mem_map.2 ⟨p, hpm, by rw [if_pos hps]⟩, rfl, rfl⟩
  · rw [e1, f3, f11]
    intro q hq
    obtain ⟨q', hq', rfl⟩ := List.mem_map.1 hq
    split
    · rename_i hs
      simp only
      rw [hs]; exact hk
    · exact e q' hq'
  · rw [e1, f2, f3, f11]
    intro v hv hr q hq hn
    obtain ⟨q', hq', rfl⟩ := List.mem_map.1 hq
    refine f v hv hr q' hq' ?_
    rw [← hn]; split <;> rfl

theorem send_L_new {s : St} {seg : Nat} {k : Kind} (h : Inv s) (hl : L s)
    (hk : k = if s.received = [] then .base else .exact s.versioned seg) :
    L (send s seg k false) ∧ (send s seg k false).ub = s.ub := by
  obtain ⟨e1, e2, e3⟩ := send_new_eq s seg k
  refine ⟨?_, e1⟩
  obtain ⟨f1, f2, f3, f4, f5, f6, f7, f8, f9, f10, f11, f12, _⟩ := send_fields s seg k false
  obtain ⟨a, b, c, d, e, f⟩ := hl
  cases ha : s.pending.any (fun p => p.seg = seg) with
  | true =>
    obtain ⟨g1, g2⟩ := e3 ha
    rw [if_neg (by rw [a]; simp)] at g2
    refine ⟨by rw [f8]; exact a, by rw [g1]; exact b, ?_, ?_, by rw [g1, f3, f11]; exact e, by rw [g1, f2, f3, f11]; exact f⟩
    · rw [g1, f12]; intro p hp; have := c p hp; omega
    · rw [g1, g2]
      intro l hl
      rw [List.mem_filter] at hl
      rcases List.mem_append.1 hl.1 with h1 | h1
      · exact d l h1
      · rw [List.mem_singleton.1 h1] at hl; simp at hl
  | false =>
    obtain ⟨g1, g2⟩ := e2 ha
    refine ⟨by rw [f8]; exact a, ?_, ?_, ?_, ?_, ?_⟩
    · rw [g1, List.map_append, List.nodup_append]
      refine ⟨b, by simp, ?_⟩
      intro x hx y hy
      simp only [List.map_cons, List.map_nil, List.mem_singleton] at hy
      obtain ⟨p, hp, rfl⟩ := List.mem_map.1 hx
      have := c p hp
      omega
    · rw [g1, f12]
      intro p hp
      rcases List.mem_append.1 hp with hp | hp
      · have := c p hp; omega
      · rw [List.mem_singleton.1 hp]; exact Nat.lt_succ_self _
    · rw [g1, g2]
      intro l hl
      rcases List.mem_append.1 hl with h1 | h1
      · obtain ⟨p, hp, h2⟩ := d l h1
        exact ⟨p, List.mem_append_left _ hp, h2⟩
      · rw [List.mem_singleton.1 h1]
        exact ⟨_, List.mem_append_right _ (List.mem_singleton.2 rfl), rfl, rfl⟩
    · rw [g1, f3, f11]
      intro p hp
      rcases List.mem_append.1 hp with hp | hp
      · exact e p hp
      · rw [List.mem_singleton.1 hp]; exact hk
    · rw [g1, f2, f3, f11]
      intro v hv hr p hp hn
      rcases List.mem_append.1 hp with hp | hp
      · exact f v hv hr p hp hn
      · rw [List.mem_singleton.1 hp] at hn
        have := h.valLt v hv
        simp only at hn
        omega

theorem core_any_eq {s t : St} (h : core t = core s) (k : Nat) :
    t.pending.any (fun p => p.seg = k) = s.pending.any (fun p => p.seg = k) := by
  have h1 := core_any s k
  have h2 := core_any t k
  rw [h] at h2
  cases h3 : s.pending.any (fun p => p.seg = k) <;> cases h4 : t.pending.any (fun p => p.seg = k) <;> simp_all

theorem sends_L_retx {l : List Nat} {s : St} (h : Inv s) (hl : L s) (hr : s.received ≠ [])
    (hp : ∀ k ∈ l, s.pending.any (fun p => p.seg = k) = true) :
    L (l.foldl (fun s k => send s k (.exact s.versioned k) true) s) ∧
    (l.foldl (fun s k => send s k (.exact s.versioned k) true) s).ub = s.ub := by
  induction l generalizing s with
  | nil => exact ⟨hl, rfl⟩
  | cons k l ih =>
    obtain ⟨g1, g2⟩ := send_L_retx (k := .exact s.versioned k) h hl (hp k (by simp)) (by rw [if_neg hr])
    have f := send_fields s k (.exact s.versioned k) true
    obtain ⟨i1, i2⟩ := ih (s := send s k (.exact s.versioned k) true)
      (send_inv h (fun e => absurd e hr) (by simp)) g1 (by rw [f.2.2.1]; exact hr)
      (by intro j hj; rw [core_any_eq (send_core_retx s k _)]; exact hp j (by simp [hj]))
    exact ⟨i1, by rw [List.foldl_cons, i2, g2]⟩

theorem sends_L_new {l : List Nat} {s : St} (h : Inv s) (hl : L s) (hr : s.received ≠ [])
    (h1 : ∀ k ∈ l, hasKey k s.buffer = false ∧ k < s.next) :
    L (l.foldl (fun s k => send s k (.exact s.versioned k) false) s) ∧
    (l.foldl (fun s k => send s k (.exact s.versioned k) false) s).ub = s.ub := by
  induction l generalizing s with
  | nil => exact ⟨hl, rfl⟩
  | cons k l ih =>
    obtain ⟨g1, g2⟩ := send_L_new (k := .exact s.versioned k) h hl (by rw [if_neg hr])
    have f := send_fields s k (.exact s.versioned k) false
    obtain ⟨i1, i2⟩ := ih (s := send s k (.exact s.versioned k) false)
      (send_inv h (fun e => absurd e hr) (fun _ _ => h1 k (by simp))) g1 (by rw [f.2.2.1]; exact hr)
      (by intro j hj; rw [f.2.2.2.1, f.2.2.2.2.1]; exact h1 j (by simp [hj]))
    exact ⟨i1, by rw [List.foldl_cons, i2, g2]⟩

/-! The window -/

/-- The queue after `checkAllSegmentsReceived`. -/
def winRetx (s : St) : List Nat := if enough s then s.retx ++ missing s else s.retx

/-- The state before Interests are sent. -/
def winBase (s : St) (w : Nat) : St :=
  { s with
    retx := (takeRetx s.pending (avail s w) (winRetx s)).2.2
    next := (takeNew s.buffer s.nSeg (takeRetx s.pending (avail s w) (winRetx s)).2.1.toNat s.next).2 }

theorem fetchWindow_eq (s : St) (w : Nat) :
    fetchWindow s w = if enough s && (missing s).isEmpty then finalize s
      else (takeNew s.buffer s.nSeg (takeRetx s.pending (avail s w) (winRetx s)).2.1.toNat s.next).1.foldl
        (fun s k => send s k (.exact s.versioned k) false)
        ((takeRetx s.pending (avail s w) (winRetx s)).1.foldl (fun s k => send s k (.exact s.versioned k) true) (winBase s w)) := by
  unfold fetchWindow winBase winRetx
  split
  · rfl
  · by_cases he : enough s = true
    · simp only [if_pos he]; rfl
    · simp only [if_neg he]

theorem finalize_L {s : St} (h : L s) : L (finalize s) ∧ (finalize s).ub = s.ub := by
  unfold finalize
  split
  · exact ⟨stop_L (log_L h), (stop_fields _).2.2.2.2.2.2.2.2.2.2.2.2.2.2.2⟩
  · exact ⟨stop_L (log_L h), (stop_fields _).2.2.2.2.2.2.2.2.2.2.2.2.2.2.2⟩

theorem winBase_inv {s : St} {w : Nat} (h : Inv s) (hr : s.received ≠ []) : Inv (winBase s w) :=
  h.window hr rfl rfl rfl rfl rfl rfl (takeNew_spec _ _ _ _ _ _ rfl).1 rfl rfl

theorem fetchWindow_L {s : St} {w : Nat} (h : Inv s) (hl : L s) (hr : s.received ≠ []) :
    L (fetchWindow s w) ∧ (fetchWindow s w).ub = s.ub := by
  rw [fetchWindow_eq]
  split
  · exact finalize_L hl
  · have b1 : Inv (winBase s w) := winBase_inv h hr
    have b2 : L (winBase s w) := hl.congr rfl rfl rfl (List.Sublist.refl _) rfl rfl (List.Sublist.refl _)
    obtain ⟨t1, t2, t3, t4, t5⟩ := takeNew_spec s.buffer s.nSeg (takeRetx s.pending (avail s w) (winRetx s)).2.1.toNat s.next _ _ rfl
    have hm := takeRetx_mem s.pending (avail s w) (winRetx s)
    obtain ⟨c1, c2⟩ := sends_L_retx b1 b2 hr hm
    have c3 := sends_inv (r := true) (l := (takeRetx s.pending (avail s w) (winRetx s)).1) b1 hr (by simp)
    have c := sends_fields _ true (winBase s w) _ (rfl : _ = (takeRetx s.pending (avail s w) (winRetx s)).1.foldl (fun s k => send s k (.exact s.versioned k) true) (winBase s w))
    obtain ⟨d1, d2⟩ := sends_L_new (l := (takeNew s.buffer s.nSeg (takeRetx s.pending (avail s w) (winRetx s)).2.1.toNat s.next).1) c3 c1
      (by rw [c.2.2.1]; exact hr)
      (by intro k hk; rw [c.2.2.2.1, c.2.2.2.2.1]; have := t3 k hk; exact ⟨this.1, this.2.2.1⟩)
    exact ⟨d1, by rw [d2, c2]; rfl⟩

theorem fetchWindow_obj (s : St) (w : Nat) (h : Obj s) : Obj (fetchWindow s w) := by
  rw [fetchWindow_eq]
  split
  · unfold finalize
    split
    · have f := stop_fields { s with log := s.log ++ [.inOrderComplete] }
      intro d hd
      rw [f.1] at hd
      rw [f.2.2.2.2.2.2.2.2.2.2.1, f.2.2.2.1]
      simp only [List.mem_append, List.mem_singleton, reduceCtorEq, or_false] at hd
      exact h d hd
    · have f := stop_fields { s with log := s.log ++ [.complete ((List.range (toI64 s.nSeg).toNat).map fun i => (lookup i s.buffer).getD []).flatten] }
      intro d hd
      rw [f.1] at hd
      rw [f.2.2.2.2.2.2.2.2.2.2.1, f.2.2.2.1]
      simp only [List.mem_append, List.mem_singleton, reduceCtorEq, or_false] at hd
      exact h d hd
  · have c := sends_fields _ true (winBase s w) _ (rfl : _ = (takeRetx s.pending (avail s w) (winRetx s)).1.foldl (fun s k => send s k (.exact s.versioned k) true) (winBase s w))
    have d := sends_fields (takeNew s.buffer s.nSeg (takeRetx s.pending (avail s w) (winRetx s)).2.1.toNat s.next).1 false ((takeRetx s.pending (avail s w) (winRetx s)).1.foldl (fun s k => send s k (.exact s.versioned k) true) (winBase s w)) _ rfl
    intro x hx
    rw [d.1, c.1] at hx
    rw [d.2.2.2.2.2.2.2.2.2.2.1, c.2.2.2.2.2.2.2.2.2.2.1, d.2.2.1, c.2.2.1]
    exact h x hx

/-! Data -/

theorem sublist_L {s t : St} (h : L s) (h1 : t.cfg = s.cfg) (h2 : t.pending.Sublist s.pending) (h3 : t.nextId = s.nextId)
    (h4 : ∀ l ∈ t.live, l ∈ s.live ∧ ∀ p ∈ s.pending, p.iid = l.iid → p ∈ t.pending) (h5 : t.received = s.received)
    (h6 : t.versioned = s.versioned) (h7 : t.validating = s.validating) : L t := by
  obtain ⟨a, b, c, d, e, f⟩ := h
  have hs := h2.subset
  refine ⟨by rw [h1]; exact a, (h2.map _).nodup b, by rw [h3]; exact fun p hp => c p (hs hp), ?_, ?_, ?_⟩
  · intro l hl
    obtain ⟨g1, g2⟩ := h4 l hl
    obtain ⟨p, hp, hi, hk⟩ := d l g1
    exact ⟨p, g2 p hp hi, hi, hk⟩
  · rw [h5, h6]; exact fun p hp => e p (hs hp)
  · rw [h5, h6, h7]; exact fun v hv hr p hp => f v hv hr p (hs hp)

theorem takeFinal_L {s : St} {d : Data} (h : L s) : L (takeFinal s d) := by
  unfold takeFinal
  split
  · split
    · rename_i f _ _
      have h' : L { s with nSeg := (f + 1) % 2 ^ 64 } := h.congr rfl rfl rfl (List.Sublist.refl _) rfl rfl (List.Sublist.refl _)
      generalize ({ s with nSeg := (f + 1) % 2 ^ 64 } : St) = s1 at h'
      have c := cancelExcess_fields s1
      apply sublist_L h' <;> first | (simp [c]; done) | skip
      · intro l hl
        have hlive : (cancelExcess s1).live = s1.live.filter (fun l => l.iid ∉ (s1.pending.filter (fun p => p.seg ≥ s1.nSeg)).map Pend.iid) := by
          simp only [cancelExcess, cancel]
          rw [if_neg (by rw [h'.late]; simp)]
        rw [hlive, List.mem_filter] at hl
        refine ⟨hl.1, ?_⟩
        intro p hp hi
        rw [c.2.2.2.2.2.2.2.2.2.2.2.2.2.1, List.mem_filter]
        refine ⟨hp, ?_⟩
        have h2 := hl.2
        simp only [decide_eq_true_eq] at h2 ⊢
        apply Classical.byContradiction
        intro hlt
        apply h2
        exact List.mem_map.2 ⟨p, List.mem_filter.2 ⟨hp, by simp only [decide_eq_true_eq, ge_iff_le]; omega⟩, hi⟩
    · exact h
  · exact h

theorem deliver_fields (fuel : Nat) (s : St) :
    (deliver fuel s).cfg = s.cfg ∧ (deliver fuel s).pending = s.pending ∧ (deliver fuel s).nextId = s.nextId ∧
    (deliver fuel s).live = s.live ∧ (deliver fuel s).received = s.received ∧ (deliver fuel s).versioned = s.versioned ∧
    (deliver fuel s).validating = s.validating ∧ (deliver fuel s).ub = s.ub ∧
    (∀ d, Obs.validated d ∈ (deliver fuel s).log ↔ Obs.validated d ∈ s.log) ∧ (deliver fuel s).nSeg = s.nSeg ∧
    (deliver fuel s).stopped = s.stopped := by
  induction fuel generalizing s with
  | zero => simp [deliver]
  | succ fuel ih =>
    unfold deliver
    split
    · simp
    · rename_i c hc
      have := ih { s with log := s.log ++ [.inOrder c], buffer := s.buffer.filter (fun x => x.1 ≠ s.nextInOrder), nextInOrder := s.nextInOrder + 1 }
      obtain ⟨i1, i2, i3, i4, i5, i6, i7, i8, i9, i10⟩ := this
      refine ⟨i1, i2, i3, i4, i5, i6, i7, i8, ?_, i10⟩
      intro d
      rw [i9]; simp

theorem deliverFrom_fields (s : St) (cur : Nat) :
    (deliverFrom s cur).cfg = s.cfg ∧ (deliverFrom s cur).pending = s.pending ∧ (deliverFrom s cur).nextId = s.nextId ∧
    (deliverFrom s cur).live = s.live ∧ (deliverFrom s cur).received = s.received ∧ (deliverFrom s cur).versioned = s.versioned ∧
    (deliverFrom s cur).validating = s.validating ∧ (deliverFrom s cur).ub = s.ub ∧
    (∀ d, Obs.validated d ∈ (deliverFrom s cur).log ↔ Obs.validated d ∈ s.log) ∧ (deliverFrom s cur).nSeg = s.nSeg ∧
    (deliverFrom s cur).stopped = s.stopped := by
  unfold deliverFrom
  split
  · exact deliver_fields _ _
  · simp

theorem deliverFrom_inv {s : St} {cur : Nat} (h : Inv s) (hr : s.received ≠ []) (hn : NoTerm s.log) : Inv (deliverFrom s cur) := by
  unfold deliverFrom
  split
  · rename_i hc
    rw [Bool.and_eq_true] at hc
    exact (deliver_spec _ s h hc.1 hr hn (Nat.le_refl _)).1
  · exact h

theorem learn_L {s : St} {d : Data} {cur : Nat} (h : L s) (hd : s.pending = [] ∨ s.versioned = d.obj) (hr : s.received ≠ []) : L (learn s d cur) := by
  unfold learn
  split
  · obtain ⟨a, b, c, dd, e, f⟩ := h
    rcases hd with hd | hd
    · refine ⟨a, b, c, dd, ?_, ?_⟩
      · intro p hp; simp only [hd] at hp; simp at hp
      · intro v hv _ p hp; simp only [hd] at hp; simp at hp
    · rw [hd] at e f
      exact ⟨a, b, c, dd, e, f⟩
  · exact h

theorem learn_ub (s : St) (d : Data) (cur : Nat) : (learn s d cur).ub = s.ub := by unfold learn; split <;> rfl

theorem afterStored_L {s : St} {d : Data} {cur w : Nat} (h : Inv s) (hl : L s) (hn : NoTerm s.log) (hr : s.received ≠ [])
    (hd : (s.received.length = 1 ∧ s.pending = []) ∨ s.versioned = d.obj)
    (hobj : ∀ x, Obs.validated x ∈ s.log → x = d ∨ (x.obj = d.obj)) :
    L (afterStored s d cur w) ∧ (afterStored s d cur w).ub = s.ub ∧ (d.final ≠ some none → Obj (afterStored s d cur w)) ∧
    (d.final = some none → ∀ x y, Obs.validated x ∈ s.log → Obs.validated y ∈ s.log → x.obj = y.obj) := by
  have hall : ∀ x, Obs.validated x ∈ s.log → x.obj = d.obj := by
    intro x hx
    rcases hobj x hx with rfl | h1
    · rfl
    · exact h1
  refine ⟨?_, ?_, ?_, ?_⟩
  all_goals try (intro _ x y hx hy; rw [hall x hx, hall y hy])
  all_goals unfold afterStored
  · split
    · exact error_L hl
    · have g1 := takeFinal_inv (d := d) h
      have g2 := takeFinal_L (d := d) hl
      have c := takeFinal_fields s d
      have e := deliverFrom_fields (takeFinal s d) cur
      have g3 := deliverFrom_inv (cur := cur) g1 (by rw [c.2.2.2.1]; exact hr) (by rw [c.1]; exact hn)
      have g4 : L (deliverFrom (takeFinal s d) cur) :=
        g2.congr e.1 e.2.1 e.2.2.1 (by rw [e.2.2.2.1]; exact List.Sublist.refl _) e.2.2.2.2.1 e.2.2.2.2.2.1 (by rw [e.2.2.2.2.2.2.1]; exact List.Sublist.refl _)
      have hr3 : (deliverFrom (takeFinal s d) cur).received ≠ [] := by rw [e.2.2.2.2.1, c.2.2.2.1]; exact hr
      refine (fetchWindow_L (learn_inv g3 hr3) (learn_L g4 ?_ hr3) (by rw [(learn_fields _ d cur).2.1]; exact hr3)).1
      rcases hd with hd | hd
      · left
        rw [e.2.1]
        have := c.2.2.2.2.2.2.2.2.2.2.2.2.1
        rw [hd.2] at this
        exact List.sublist_nil.1 this
      · right; rw [e.2.2.2.2.2.1, c.2.2.2.2.2.2.2.2.2.2.1]; exact hd
  · split
    · exact (stop_fields _).2.2.2.2.2.2.2.2.2.2.2.2.2.2.2
    · have g1 := takeFinal_inv (d := d) h
      have g2 := takeFinal_L (d := d) hl
      have c := takeFinal_fields s d
      have e := deliverFrom_fields (takeFinal s d) cur
      have g3 := deliverFrom_inv (cur := cur) g1 (by rw [c.2.2.2.1]; exact hr) (by rw [c.1]; exact hn)
      have g4 : L (deliverFrom (takeFinal s d) cur) :=
        g2.congr e.1 e.2.1 e.2.2.1 (by rw [e.2.2.2.1]; exact List.Sublist.refl _) e.2.2.2.2.1 e.2.2.2.2.2.1 (by rw [e.2.2.2.2.2.2.1]; exact List.Sublist.refl _)
      have hr3 : (deliverFrom (takeFinal s d) cur).received ≠ [] := by rw [e.2.2.2.2.1, c.2.2.2.1]; exact hr
      rw [(fetchWindow_L (w := w) (learn_inv (d := d) (cur := cur) g3 hr3) (learn_L g4 ?_ hr3) (by rw [(learn_fields _ d cur).2.1]; exact hr3)).2, learn_ub, e.2.2.2.2.2.2.2.1, c.2.2.2.2.2.2.2.2.2.2.2.2.2.1]
      rcases hd with hd | hd
      · left
        rw [e.2.1]
        have := c.2.2.2.2.2.2.2.2.2.2.2.2.1
        rw [hd.2] at this
        exact List.sublist_nil.1 this
      · right; rw [e.2.2.2.2.2.1, c.2.2.2.2.2.2.2.2.2.2.1]; exact hd
  · intro hne
    rw [if_neg hne]
    apply fetchWindow_obj
    have c := takeFinal_fields s d
    have e := deliverFrom_fields (takeFinal s d) cur
    have l := learn_fields (deliverFrom (takeFinal s d) cur) d cur
    intro x hx
    rw [l.1, e.2.2.2.2.2.2.2.2.1 x, c.1] at hx
    rw [l.2.1, e.2.2.2.2.1, c.2.2.2.1]
    refine ⟨?_, hr⟩
    rw [hall x hx]
    unfold learn
    split
    · rfl
    · rename_i h1
      rw [e.2.2.2.2.2.1, c.2.2.2.2.2.2.2.2.2.2.1]
      rcases hd with hd | hd
      · rw [e.2.2.2.2.1, c.2.2.2.1] at h1; exact absurd hd.1 h1
      · exact hd.symm

def SameObj (s : St) : Prop := ∀ x y, Obs.validated x ∈ s.log → Obs.validated y ∈ s.log → x.obj = y.obj

theorem Obj.same {s : St} (h : Obj s) : SameObj s := fun x y hx hy => by rw [(h x hx).1, (h y hy).1]

/-- For the end of an event. -/
def GoodL (s : St) : Prop := L s ∧ SameObj s ∧ (s.stopped = true ∨ Obj s)

theorem obj_log {s t : St} (h : Obj s) (h1 : ∀ d, Obs.validated d ∈ t.log → Obs.validated d ∈ s.log) (h2 : t.versioned = s.versioned)
    (h3 : t.received = s.received) : Obj t := by
  intro d hd
  rw [h2, h3]
  exact h d (h1 d hd)

theorem error_goodL {s : St} {c : Nat} (h : L s) (ho : Obj s) : GoodL (error s c) := by
  have f := stop_fields { s with log := s.log ++ [.error c] }
  have : Obj (error s c) := by
    apply obj_log ho
    · intro d hd
      unfold error at hd
      rw [f.1] at hd
      simpa using hd
    · exact f.2.2.2.2.2.2.2.2.2.2.1
    · exact f.2.2.2.1
  exact ⟨error_L h, this.same, Or.inr this⟩

theorem store_L {s : St} {p : Pend} {c : Bytes} {cur : Nat} (h : Inv s) (hl : L s) (hp : p ∈ s.pending) (hb : hasKey cur s.buffer = false) :
    L (store s p c cur) ∧ (s.received = [] → (store s p c cur).pending = []) := by
  have f := store_fields s p c cur hb
  obtain ⟨f1, f2, f3, f4, f5, f6, f7, f8, f9, f10, f11, f12, f13, f14, f15, f16, f17, f18, f19⟩ := f
  have hnil : s.received = [] → (store s p c cur).pending = [] := by
    intro hr
    rw [f18, List.filter_eq_nil_iff]
    intro q hq
    have h1 := (h.recNil hr).2.1 _ (mem_core hq)
    have h2 := (h.recNil hr).2.1 _ (mem_core hp)
    simp only at h1 h2
    have := eq_of_nodup_map (segs_nodup h) hq hp (by rw [h1, h2])
    simp [this]
  refine ⟨?_, hnil⟩
  obtain ⟨a, b, cc, d, e, g⟩ := hl
  have hsub : (store s p c cur).pending.Sublist s.pending := by rw [f18]; exact List.filter_sublist
  have hlive : ∀ l ∈ (store s p c cur).live, l ∈ s.live ∧ l.iid ≠ p.iid := by
    intro l hl
    rw [f19] at hl
    unfold cancel at hl
    rw [if_neg (by rw [a]; simp)] at hl
    simp only [List.mem_filter] at hl
    refine ⟨hl.1, ?_⟩
    have := hl.2
    simpa using this
  have hr' : (store s p c cur).received ≠ [] := by
    rw [f4]
    split
    · rename_i hm; intro e; rw [e] at hm; simp at hm
    · simp
  refine ⟨by rw [f9]; exact a, (hsub.map _).nodup b, by rw [f2]; exact fun q hq => cc q (hsub.subset hq), ?_, ?_, ?_⟩
  · intro l hl
    obtain ⟨g1, g2⟩ := hlive l hl
    obtain ⟨q, hq, hi, hk⟩ := d l g1
    refine ⟨q, ?_, hi, hk⟩
    rw [f18, List.mem_filter]
    refine ⟨hq, ?_⟩
    simp only [ne_eq, decide_eq_true_eq]
    intro hn
    have := eq_of_nodup_map (nodes_nodup h) hq hp hn
    rw [this] at hi
    exact g2 hi.symm
  · intro q hq
    rw [if_neg hr', f11]
    by_cases hr : s.received = []
    · rw [hnil hr] at hq; simp at hq
    · have := e q (hsub.subset hq)
      rw [if_neg hr] at this
      exact this
  · rw [f3, f11]
    intro v hv _ q hq hn
    by_cases hr : s.received = []
    · rw [hnil hr] at hq; simp at hq
    · exact g v hv hr q (hsub.subset hq) hn

theorem signal_pending_sublist (s : St) (o : Obs) (b : Bool) : (signal s o b).pending.Sublist s.pending := by
  unfold signal
  split
  · unfold stop
    split
    · exact List.Sublist.refl _
    · simp
  · exact List.Sublist.refl _

theorem success_L {s : St} {v : Val} {w : Nat} {b : Bool} (h : Inv s) (ht : Term s) (hl : GoodL s)
    (hrec : Obs.received v.data ∈ s.log) (hseg : ∃ k, v.data.seg = some k)
    (hpend : s.received ≠ [] → ∀ p ∈ core s, p.2 = v.node → v.data.seg = some p.1)
    (hval : s.received ≠ [] → ∀ p ∈ s.pending, p.node = v.node → v.data.obj = s.versioned) :
    GoodL (success s v w b) ∧ ((∃ p ∈ s.pending, p.node = v.node) ∨ s.stopped = true → (success s v w b).ub = s.ub) := by
  unfold success
  split
  · exact ⟨hl, fun _ => rfl⟩
  · rename_i hs
    have hs' : s.stopped = false := by simpa using hs
    have hn := term_noTerm ht hs'
    obtain ⟨l1, l2, l3⟩ := hl
    have hobj : Obj s := by
      rcases l3 with l3 | l3
      · rw [hs'] at l3; simp at l3
      · exact l3
    cases hfd : s.pending.find? (fun p => p.node = v.node) with
    | none =>
      refine ⟨⟨l1.congr rfl rfl rfl (List.Sublist.refl _) rfl rfl (List.Sublist.refl _), l2, Or.inr hobj⟩, ?_⟩
      rintro (⟨p, hp, hpn⟩ | h2)
      · exact absurd (by simpa using hpn) (List.find?_eq_none.1 hfd p hp)
      · rw [hs'] at h2; simp at h2
    | some p =>
      simp only
      obtain ⟨hp, hpn⟩ := find_mem hfd
      simp only [decide_eq_true_eq] at hpn
      obtain ⟨cur, hcur⟩ := hseg
      have hc0 : v.data.seg.getD 0 = cur := by rw [hcur]; rfl
      rw [hc0]
      have hce : s.received ≠ [] → cur = p.seg := by
        intro hr
        have := hpend hr _ (mem_core hp) hpn
        rw [hcur, Option.some.injEq] at this
        exact this
      have hb : hasKey cur s.buffer = false :=
        stored_fresh h (v := v) (p := p) (Or.inr (fun hr => by rw [hcur, hce hr])) hp hpn hcur
      obtain ⟨i1, i2⟩ := store_inv h hn hp hce hcur hrec hb
      obtain ⟨j1, j2⟩ := store_L (c := v.data.content) h l1 hp hb
      have f := store_fields s p v.data.content cur hb
      have g := signal_fields (store s p v.data.content cur) (.validated v.data) b
      have gp := signal_pending_sublist (store s p v.data.content cur) (.validated v.data) b
      have k1 : Inv (signal (store s p v.data.content cur) (.validated v.data) b) := by
        apply signal_inv; rw [f.1]; exact i1
      have k2 : L (signal (store s p v.data.content cur) (.validated v.data) b) := signal_L j1
      generalize hs1 : signal (store s p v.data.content cur) (.validated v.data) b = s1 at *
      obtain ⟨m1, m2, m3, m4⟩ := afterStored_L (w := w) (d := v.data) (cur := cur) k1 k2 (by rw [g.1, f.1]; exact noTerm_snoc hn rfl) (by rw [g.2.2.2.1]; exact i2)
        (by
          by_cases hr : s.received = []
          · left
            refine ⟨?_, ?_⟩
            · rw [g.2.2.2.1, f.2.2.2.1, hr]; simp
            · rw [j2 hr] at gp; exact List.sublist_nil.1 gp
          · right
            rw [g.2.2.2.2.2.2.2.2.2.2.1, f.2.2.2.2.2.2.2.2.2.2.1]
            exact (hval hr p hp hpn).symm)
        (by
          intro x hx
          rw [g.1, f.1] at hx
          simp only [List.mem_append, List.mem_singleton, Obs.validated.injEq] at hx
          rcases hx with hx | hx
          · right
            obtain ⟨o1, o2⟩ := hobj x hx
            rw [o1]; exact (hval o2 p hp hpn).symm
          · left; exact hx)
      have hub : (afterStored s1 v.data cur w).ub = s.ub := by
        rw [m2, g.2.2.2.2.2.2.2.2.2.2.2.2.2.2.2, f.2.2.2.2.2.2.2.2.2.2.2.2.2.2.2.1]
      refine ⟨⟨m1, ?_, ?_⟩, fun _ => hub⟩
      · by_cases hfin : v.data.final = some none
        · have := m4 hfin
          intro x y hx hy
          have hlog : (afterStored s1 v.data cur w).log = s1.log ++ [.error 5] := by
            unfold afterStored; rw [if_pos hfin]; exact (stop_fields _).1
          rw [hlog] at hx hy
          exact this x y (by simpa using hx) (by simpa using hy)
        · exact (m3 hfin).same
      · by_cases hfin : v.data.final = some none
        · left
          unfold afterStored; rw [if_pos hfin]; exact stop_stopped _
        · exact Or.inr (m3 hfin)

theorem goodL_obj {s : St} (h : GoodL s) (hs : s.stopped = false) : Obj s := by
  rcases h.2.2 with h | h
  · rw [hs] at h; simp at h
  · exact h

theorem goodL_congr {s t : St} (h : GoodL s) (h1 : t.cfg = s.cfg) (h2 : t.pending = s.pending) (h3 : t.nextId = s.nextId)
    (h4 : t.live.Sublist s.live) (h5 : t.received = s.received) (h6 : t.versioned = s.versioned)
    (h7 : t.validating.Sublist s.validating) (h8 : t.log = s.log) (h9 : t.stopped = s.stopped) : GoodL t := by
  obtain ⟨a, b, c⟩ := h
  refine ⟨a.congr h1 h2 h3 h4 h5 h6 h7, ?_, ?_⟩
  · unfold SameObj; rw [h8]; exact b
  · rw [h9]
    rcases c with c | c
    · exact Or.inl c
    · exact Or.inr (obj_log c (by rw [h8]; exact fun _ h => h) h6 h5)

theorem result_L {s : St} {vid w : Nat} {ok b : Bool} (h : Good s) (hl : GoodL s) : GoodL (result s vid ok w b) := by
  obtain ⟨h, hf, ht, ha⟩ := h
  unfold result
  cases hfd : s.validating.find? (fun v => v.vid = vid) with
  | none => exact hl
  | some v =>
    simp only
    have hv : v ∈ s.validating := List.mem_of_find?_eq_some hfd
    obtain ⟨x1, x2, x3, x4⟩ := h.valid v hv
    have h' : Inv { s with validating := s.validating.filter (fun x => x.vid ≠ vid) } := by
      apply h.sublist <;> first | rfl | exact List.Sublist.refl _ | exact List.filter_sublist
    have hl' : GoodL { s with validating := s.validating.filter (fun x => x.vid ≠ vid) } :=
      goodL_congr hl rfl rfl rfl (List.Sublist.refl _) rfl rfl List.filter_sublist rfl rfl
    split
    · exact (success_L h' ht hl' x1 x2 x4 (fun hr p hp hpn => hl.1.val v hv hr p hp hpn)).1
    · split
      · exact hl'
      · rename_i hs
        exact error_goodL hl'.1 (goodL_obj hl' (by simpa using hs))

theorem signal_obj {s : St} {o : Obs} {b : Bool} (h : Obj s) (ho : ∀ d, o ≠ .validated d) : Obj (signal s o b) := by
  have f := signal_fields s o b
  apply obj_log h
  · intro d hd
    rw [f.1] at hd
    rcases List.mem_append.1 hd with hd | hd
    · exact hd
    · exact absurd (List.mem_singleton.1 hd).symm (ho d)
  · exact f.2.2.2.2.2.2.2.2.2.2.1
  · exact f.2.2.2.1

/-- The Interest answered is the one of the pending segment. -/
theorem validate_L {s : St} {p : Pend} {d : Data} {verdict : Option Bool} {w : Nat} {b c : Bool} {k : Nat} (h : Inv s) (hf : FinalOk s)
    (hl : L s) (ho : Obj s) (hs : s.stopped = false) (hn : NoTerm s.log) (ha : Ahead s) (hp : p ∈ s.pending) (hk : d.seg = some k) (hpk : s.received ≠ [] → p.seg = k)
    (hfin : ∀ f, d.final = some (some f) → f < 2 ^ 64) (hobj : s.received ≠ [] → d.obj = s.versioned) :
    GoodL (validate s p d verdict w b c) := by
  cases hv : verdict with
  | none =>
    unfold validate
    simp only
    have f := signal_fields (unschedule s p.node) (.received d) b
    have g1 : L (signal (unschedule s p.node) (.received d) b) := signal_L (unschedule_L hl)
    have g2 : Obj (signal (unschedule s p.node) (.received d) b) := signal_obj (s := unschedule s p.node) ho (by simp)
    generalize signal (unschedule s p.node) (.received d) b = s1 at *
    have g3 : Obj { s1 with validating := s1.validating ++ [⟨s1.nextId, p.node, d⟩], nextId := s1.nextId + 1 } := g2
    refine ⟨?_, g3.same, Or.inr g3⟩
    obtain ⟨a, b, c, dd, e, f'⟩ := g1
    refine ⟨a, b, ?_, dd, e, ?_⟩
    · intro q hq; have := c q hq; show q.iid < s1.nextId + 1; omega
    · intro v hv hr q hq hqn
      rcases List.mem_append.1 hv with hv | hv
      · exact f' v hv hr q hq hqn
      · rw [List.mem_singleton.1 hv]
        show d.obj = s1.versioned
        rw [f.2.2.2.2.2.2.2.2.2.2.1]
        apply hobj
        have : s1.received = s.received := f.2.2.2.1
        rw [← this]; exact hr
  | some ok =>
    have hgood := validate_good (verdict := none) (w := w) (b := b) (c := c) h hf hs hn ha hp hk hpk hfin
    have ih : GoodL (validate s p d none w b c) := by
      unfold validate
      simp only
      have f := signal_fields (unschedule s p.node) (.received d) b
      have g1 : L (signal (unschedule s p.node) (.received d) b) := signal_L (unschedule_L hl)
      have g2 : Obj (signal (unschedule s p.node) (.received d) b) := signal_obj (s := unschedule s p.node) ho (by simp)
      generalize signal (unschedule s p.node) (.received d) b = s1 at *
      have g3 : Obj { s1 with validating := s1.validating ++ [⟨s1.nextId, p.node, d⟩], nextId := s1.nextId + 1 } := g2
      refine ⟨?_, g3.same, Or.inr g3⟩
      obtain ⟨a, b, c, dd, e, f'⟩ := g1
      refine ⟨a, b, ?_, dd, e, ?_⟩
      · intro q hq; have := c q hq; show q.iid < s1.nextId + 1; omega
      · intro v hv hr q hq hqn
        rcases List.mem_append.1 hv with hv | hv
        · exact f' v hv hr q hq hqn
        · rw [List.mem_singleton.1 hv]
          show d.obj = s1.versioned
          rw [f.2.2.2.2.2.2.2.2.2.2.1]
          apply hobj
          have : s1.received = s.received := f.2.2.2.1
          rw [← this]; exact hr
    exact result_L hgood ih

theorem onData_L {s : St} {iid : Nat} {d : Data} {verdict : Option Bool} {w : Nat} {b c : Bool} (h : Good s) (hl : GoodL s)
    (hfin : ∀ f, d.final = some (some f) → f < 2 ^ 64) : GoodL (onData s iid d verdict w b c) := by
  obtain ⟨h, hf, ht, ha⟩ := h
  unfold onData
  split
  · exact hl
  · rename_i l hfl
    split
    · rename_i hans
      simp only
      have hl' : GoodL { s with live := s.live.filter (fun x => x.iid ≠ iid) } :=
        goodL_congr hl rfl rfl rfl List.filter_sublist rfl rfl (List.Sublist.refl _) rfl rfl
      split
      · exact hl'
      · rename_i hs
        have hs' : s.stopped = false := by simpa using hs
        have hn := term_noTerm ht hs'
        have ha' := ahead_of ha hs'
        have h2 : Inv { s with live := s.live.filter (fun x => x.iid ≠ iid), inFlight := s.inFlight - 1 } := h.congr rfl rfl rfl rfl rfl rfl rfl rfl rfl rfl
        have l2 : L { s with live := s.live.filter (fun x => x.iid ≠ iid), inFlight := s.inFlight - 1 } :=
          hl.1.congr rfl rfl rfl List.filter_sublist rfl rfl (List.Sublist.refl _)
        have o2 : Obj { s with live := s.live.filter (fun x => x.iid ≠ iid), inFlight := s.inFlight - 1 } := obj_log (goodL_obj hl hs') (fun _ h => h) rfl rfl
        split
        · exact error_goodL l2 o2
        · rename_i k hk
          split
          · exact ⟨l2, o2.same, Or.inr o2⟩
          · rename_i p hp
            obtain ⟨p1, p2⟩ := dataTarget_mem hp
            refine validate_L h2 (hf.congr rfl rfl) l2 o2 hs' hn ha' p1 hk p2 hfin ?_
            intro hr
            have hlm : l ∈ s.live := List.mem_of_find?_eq_some hfl
            obtain ⟨q, hq, _, hqk⟩ := hl.1.live l hlm
            have := hl.1.kind q hq
            rw [if_neg hr, hqk] at this
            rw [this] at hans
            simp only [answers, Bool.and_eq_true, decide_eq_true_eq] at hans
            exact hans.1
    · exact hl

theorem send_obj {s : St} {k : Nat} {kd : Kind} {r : Bool} (h : Obj s) : Obj (send s k kd r) := by
  have f := send_fields s k kd r
  exact obj_log h (by rw [f.1]; exact fun _ h => h) f.2.2.2.2.2.2.2.2.2.2.1 f.2.2.1

theorem any_of_mem {l : List Pend} {p : Pend} (h : p ∈ l) : l.any (fun q => q.seg = p.seg) = true :=
  List.any_eq_true.2 ⟨p, h, by simp⟩

theorem afterLoss_L {s : St} {k : Kind} {w : Nat} (h : Inv s) (hl : L s) (ho : Obj s) :
    GoodL (afterLoss s k w) ∧ (lossTarget s k ≠ none → (afterLoss s k w).ub = s.ub) := by
  unfold afterLoss
  split
  · exact ⟨error_goodL hl ho, fun _ => (stop_fields _).2.2.2.2.2.2.2.2.2.2.2.2.2.2.2⟩
  · split
    · rename_i hnone
      have : Obj { s with ub := true } := ho
      exact ⟨⟨hl.congr rfl rfl rfl (List.Sublist.refl _) rfl rfl (List.Sublist.refl _), this.same, Or.inr this⟩, fun hne => absurd hnone hne⟩
    · rename_i p hp
      simp only
      have h' := unschedule_inv (n := p.node) h
      have l' := unschedule_L (n := p.node) hl
      have o' : Obj (unschedule s p.node) := ho
      have hpm := lossTarget_mem hp
      split
      · rename_i hr
        have hz : (unschedule s p.node).pending.any (fun q => q.seg = 0) = true := by
          rw [core_any_eq (unschedule_core s p.node)]
          have := (h.recNil hr).2.1 _ (mem_core hpm)
          simp only at this
          have h3 := any_of_mem hpm
          rw [this] at h3
          exact h3
        obtain ⟨g1, g2⟩ := send_L_retx (k := .base) h' l' hz (by rw [if_pos hr])
        exact ⟨⟨g1, (send_obj o').same, Or.inr (send_obj o')⟩, fun _ => by rw [g2]; rfl⟩
      · rename_i hr
        have h2 : Inv { unschedule s p.node with retx := (unschedule s p.node).retx ++ [p.seg] } :=
          h'.window hr rfl rfl rfl rfl rfl rfl (Nat.le_refl _) rfl rfl
        have l2 : L { unschedule s p.node with retx := (unschedule s p.node).retx ++ [p.seg] } :=
          l'.congr rfl rfl rfl (List.Sublist.refl _) rfl rfl (List.Sublist.refl _)
        obtain ⟨g1, g2⟩ := fetchWindow_L (w := w) h2 l2 hr
        have o2 := fetchWindow_obj { unschedule s p.node with retx := (unschedule s p.node).retx ++ [p.seg] } w o'
        exact ⟨⟨g1, o2.same, Or.inr o2⟩, fun _ => by rw [g2]; rfl⟩

theorem onNack_L {s : St} {iid : Nat} {g : Bool} {w : Nat} {b : Bool} (h : Good s) (hl : GoodL s) : GoodL (onNack s iid g w b) := by
  obtain ⟨h, hf, ht, ha⟩ := h
  unfold onNack
  split
  · exact hl
  · simp only
    have hl' : GoodL { s with live := s.live.filter (fun x => x.iid ≠ iid) } :=
      goodL_congr hl rfl rfl rfl List.filter_sublist rfl rfl (List.Sublist.refl _) rfl rfl
    have h' : Inv { s with live := s.live.filter (fun x => x.iid ≠ iid) } := h.congr rfl rfl rfl rfl rfl rfl rfl rfl rfl rfl
    split
    · exact hl'
    · rename_i hs
      have hs' : s.stopped = false := by simpa using hs
      have hn := term_noTerm ht hs'
      obtain ⟨g1, g2, g3⟩ := signal_good (o := .nacked) (b := b) h' (hf.congr rfl rfl) hn ⟨hn, trivial⟩
        (by simp [delivered, List.filterMap_append]) rfl rfl
      have l1 : L (signal { s with live := s.live.filter (fun x => x.iid ≠ iid) } .nacked b) := signal_L hl'.1
      have o1 : Obj (signal { s with live := s.live.filter (fun x => x.iid ≠ iid) } .nacked b) :=
        signal_obj (goodL_obj hl' hs') (by simp)
      generalize signal { s with live := s.live.filter (fun x => x.iid ≠ iid) } .nacked b = s1 at *
      have g1' : Inv { s1 with inFlight := s1.inFlight - 1 } := g1.congr rfl rfl rfl rfl rfl rfl rfl rfl rfl rfl
      have l1' : L { s1 with inFlight := s1.inFlight - 1 } := l1.congr rfl rfl rfl (List.Sublist.refl _) rfl rfl (List.Sublist.refl _)
      have o1' : Obj { s1 with inFlight := s1.inFlight - 1 } := o1
      split
      · exact (afterLoss_L g1' l1' o1').1
      · exact error_goodL l1' o1'

theorem onTimeout_L {s : St} {n w : Nat} {b : Bool} (h : Good s) (hl : GoodL s) : GoodL (onTimeout s n w b) := by
  obtain ⟨h, hf, ht, ha⟩ := h
  unfold onTimeout
  split
  · exact hl
  · rename_i p hp
    simp only
    have h' := unschedule_inv (n := p.node) h
    have l' := unschedule_L (n := p.node) hl.1
    split
    · rename_i hs
      exact ⟨l', hl.2.1, Or.inl hs⟩
    · rename_i hs
      have hs' : s.stopped = false := by simpa [unschedule] using hs
      have hn := term_noTerm ht hs'
      have o' : Obj (unschedule s p.node) := obj_log (goodL_obj hl hs') (fun _ h => h) rfl rfl
      obtain ⟨g1, g2, g3⟩ := signal_good (o := .timedOut) (b := b) h' (hf.congr rfl rfl) hn ⟨hn, trivial⟩
        (by simp [delivered, List.filterMap_append]) rfl rfl
      have l1 : L (signal (unschedule s p.node) .timedOut b) := signal_L l'
      have o1 : Obj (signal (unschedule s p.node) .timedOut b) := signal_obj o' (by simp)
      generalize signal (unschedule s p.node) .timedOut b = s1 at *
      have g1' : Inv { s1 with inFlight := s1.inFlight - 1 } := g1.congr rfl rfl rfl rfl rfl rfl rfl rfl rfl rfl
      have l1' : L { s1 with inFlight := s1.inFlight - 1 } := l1.congr rfl rfl rfl (List.Sublist.refl _) rfl rfl (List.Sublist.refl _)
      have o1' : Obj { s1 with inFlight := s1.inFlight - 1 } := o1
      exact (afterLoss_L g1' l1' o1').1

theorem start_L (cfg : Cfg) (hc : cfg.late = false) : GoodL (start cfg) := by
  have : start cfg = ⟨cfg, false, 1, 0, 0, 0, 0, [], 0, [], [⟨0, 0, 0, .base, true⟩], [], [⟨0, .base⟩], [], 1, 0, 0, [], false⟩ := rfl
  rw [this]
  refine ⟨?_, ?_, Or.inr ?_⟩
  · constructor <;> simp [hc]
  · intro x y hx; simp at hx
  · intro x hx; simp at hx

theorem step_L {s : St} {e : Ev} (h : Good s) (hl : GoodL s) (he : ValidEvs [e]) : GoodL (step s e) := by
  cases e with
  | data i d v w a b => exact onData_L h hl (he i d v w a b (by simp)).2
  | result v ok w a => exact result_L h hl
  | nack i g w a => exact onNack_L h hl
  | timeout n w a => exact onTimeout_L h hl
  | lost i => exact goodL_congr hl rfl rfl rfl List.filter_sublist rfl rfl (List.Sublist.refl _) rfl rfl
  | stop =>
    have f := stop_fields s
    refine ⟨stop_L hl.1, ?_, Or.inl (stop_stopped s)⟩
    show SameObj (stop s)
    unfold SameObj; rw [f.1]; exact hl.2.1
  | advance dt => exact goodL_congr hl rfl rfl rfl (List.Sublist.refl _) rfl rfl (List.Sublist.refl _) rfl rfl

theorem run_L {s : St} {evs : List Ev} (h : Good s) (hl : GoodL s) (he : ValidEvs evs) : GoodL (run s evs) := by
  induction evs generalizing s with
  | nil => exact hl
  | cons e evs ih =>
    have he1 : ValidEvs [e] := by
      intro i d v w a b hm
      rw [List.mem_singleton] at hm
      exact he i d v w a b (by simp [hm])
    apply ih (step_good h he1) (step_L h hl he1)
    intro i d v w a b hm
    exact he i d v w a b (by simp [hm])

end Ndn.Fetch
