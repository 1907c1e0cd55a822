import Verif.Fetch.Frame
/- Fetching when every Interest is answered: each answer is one more segment, and the last one completes the fetch. -/
namespace Ndn.Fetch
open Spec

/-- Nothing waits to be requested again, and every pending segment has its Interest in the face. -/
structure Q (s : St) : Prop where
  late : s.cfg.late = false
  iidNodup : (s.pending.map Pend.iid).Nodup
  iidLt : ∀ p ∈ s.pending, p.iid < s.nextId
  retx : s.retx = []
  cover : ∀ p ∈ s.pending, Live.mk p.iid p.kind ∈ s.live

theorem Q.congr {s t : St} (h : Q s) (h1 : t.cfg = s.cfg) (h2 : t.pending = s.pending) (h3 : t.nextId = s.nextId)
    (h4 : t.retx = s.retx) (h5 : t.live = s.live) : Q t := by
  obtain ⟨a, b, c, d, e⟩ := h
  exact ⟨by rw [h1]; exact a, by rw [h2]; exact b, by rw [h2, h3]; exact c, by rw [h4]; exact d, by rw [h2, h5]; exact e⟩

theorem send_Q {s : St} {seg : Nat} {k : Kind} (h : Q s) : Q (send s seg k false) := by
  obtain ⟨_, e2, e3⟩ := send_new_eq s seg k
  obtain ⟨f1, f2, f3, f4, f5, f6, f7, f8, f9, f10, f11, f12, _⟩ := send_fields s seg k false
  obtain ⟨a, b, c, d, e⟩ := h
  cases ha : s.pending.any (fun p => p.seg = seg) with
  | true =>
    obtain ⟨g1, g2⟩ := e3 ha
    rw [if_neg (by rw [a]; simp)] at g2
    refine ⟨by rw [f8]; exact a, by rw [g1]; exact b, ?_, by rw [f6]; exact d, ?_⟩
    · rw [g1, f12]; intro p hp; have := c p hp; omega
    · rw [g1, g2]
      intro p hp
      have := c p hp
      refine List.mem_filter.2 ⟨List.mem_append_left _ (e p hp), ?_⟩
      simp only [ne_eq, decide_eq_true_eq]
      omega
  | false =>
    obtain ⟨g1, g2⟩ := e2 ha
    refine ⟨by rw [f8]; exact a, ?_, ?_, by rw [f6]; exact d, ?_⟩
    · rw [g1, List.map_append, List.nodup_append]
      refine ⟨b, by simp, ?_⟩
      intro x hx y hy
      simp only [List.map_cons, List.map_nil, List.mem_singleton] at hy
      obtain ⟨p, hp, rfl⟩ := List.mem_map.1 hx
      have := c p hp
      omega
    · rw [g1, f12]
      intro p hp
      rcases List.mem_append.1 hp with hp | hp
      · have := c p hp; omega
      · rw [List.mem_singleton.1 hp]; exact Nat.lt_succ_self _
    · rw [g1, g2]
      intro p hp
      rcases List.mem_append.1 hp with hp | hp
      · exact List.mem_append_left _ (e p hp)
      · rw [List.mem_singleton.1 hp]; exact List.mem_append_right _ (List.mem_singleton.2 rfl)

theorem sends_Q (l : List Nat) {s : St} (h : Q s) : Q (l.foldl (fun s k => send s k (.exact s.versioned k) false) s) := by
  induction l generalizing s with
  | nil => exact h
  | cons k l ih => exact ih (send_Q h)

theorem sends_same (l : List Nat) (s : St) :
    (l.foldl (fun s k => send s k (.exact s.versioned k) false) s).received = s.received ∧
    (l.foldl (fun s k => send s k (.exact s.versioned k) false) s).stopped = s.stopped ∧
    (l.foldl (fun s k => send s k (.exact s.versioned k) false) s).log = s.log := by
  induction l generalizing s with
  | nil => exact ⟨rfl, rfl, rfl⟩
  | cons k l ih =>
    have f := send_fields s k (.exact s.versioned k) false
    obtain ⟨a, b, c⟩ := ih (send s k (.exact s.versioned k) false)
    exact ⟨a.trans f.2.2.1, b.trans f.2.2.2.2.2.2.2.2.1, c.trans f.1⟩

theorem enough_iff {N : Nat} {s : St} (hN : N + 1 < 2 ^ 63) (hp : P N 0 none s) (hs : s.nSeg = N + 1) (hnd : s.received.Nodup) :
    enough s = true ↔ s.received.length = N + 1 := by
  have h3 : toI64 s.nSeg = s.nSeg := by unfold toI64; rw [if_pos (by omega)]
  have hle : s.received.length ≤ N + 1 := by
    have := length_le_of_nodup_subset (l := s.received) (m := List.range (N + 1)) hnd (by
      intro x hx; rw [List.mem_range]; have := hp.recLe x hx; omega)
    simpa using this
  unfold enough
  rw [h3, hp.nrec, hs]
  simp only [Bool.decide_and, Bool.and_eq_true, decide_eq_true_eq]
  omega

/-- The window is filled, or the fetch is complete. -/
theorem fetchWindow_Q {N : Nat} {s : St} {w : Nat} (hN : N + 1 < 2 ^ 63) (h : Inv s) (hp : P N 0 none s) (hq : Q s) (hi : s.cfg.inOrder = false)
    (hs : s.nSeg = N + 1) (hst : s.stopped = false) :
    (s.received.length = N + 1 ∧ (fetchWindow s w).stopped = true ∧ (fetchWindow s w).pending = [] ∧
      ∃ buf, (fetchWindow s w).log = s.log ++ [.complete buf]) ∨
    (s.received.length < N + 1 ∧ (fetchWindow s w).stopped = false ∧ Q (fetchWindow s w) ∧ (fetchWindow s w).received = s.received ∧
      (fetchWindow s w).log = s.log) := by
  have hle : s.received.length ≤ N + 1 := by
    have := length_le_of_nodup_subset (l := s.received) (m := List.range (N + 1)) h.recNodup (by
      intro x hx; rw [List.mem_range]; have := hp.recLe x hx; omega)
    simpa using this
  have hen := enough_iff hN hp hs h.recNodup
  rw [fetchWindow_eq]
  by_cases he : enough s = true
  · left
    rw [if_pos (by rw [he, enough_missing hp hN h.recNodup he]; rfl)]
    refine ⟨hen.1 he, (finalize_fields s).2.2.2, ?_⟩
    unfold finalize
    rw [if_neg (by rw [hi]; simp), stop_log]
    refine ⟨?_, _, rfl⟩
    unfold stop
    rw [if_neg (by simp [hst])]
  · right
    have he' : enough s = false := by simpa using he
    rw [if_neg (by rw [he']; simp)]
    have hr : winRetx s = [] := by unfold winRetx; rw [if_neg he, hq.retx]
    rw [hr]
    have ht : ∀ a, takeRetx s.pending a [] = ([], a, []) := fun a => rfl
    rw [ht]
    simp only [List.foldl_nil]
    have hb : Q (winBase s w) := hq.congr rfl rfl rfl (by unfold winBase; rw [hr, ht]; exact hq.retx.symm) rfl
    obtain ⟨a, b, c⟩ := sends_same (takeNew s.buffer s.nSeg (avail s w).toNat s.next).1 (winBase s w)
    refine ⟨?_, b.trans hst, sends_Q _ hb, a, c⟩
    have : s.received.length ≠ N + 1 := fun e => he (hen.2 e)
    omega

theorem takeFinal_Q {s : St} {d : Data} (h : Q s) : Q (takeFinal s d) := by
  unfold takeFinal
  split
  · split
    · obtain ⟨a, b, c, dd, e⟩ := h
      unfold cancelExcess
      simp only [cancel, a, Bool.false_eq_true, if_false]
      refine ⟨a, b.sublist (List.Sublist.map _ List.filter_sublist), fun p hp => c p (List.mem_filter.1 hp).1, dd, ?_⟩
      intro p hp
      obtain ⟨h1, h2⟩ := List.mem_filter.1 hp
      refine List.mem_filter.2 ⟨e p h1, ?_⟩
      simp only [List.mem_map, List.mem_filter, not_exists, not_and, decide_eq_true_eq] at h2 ⊢
      intro q hq hqe
      have := eq_of_nodup_map b hq.1 h1 hqe
      subst this
      exact absurd h2 (Nat.not_lt.2 hq.2)
    · exact h
  · exact h

theorem learn_Q {s : St} {d : Data} {cur : Nat} (h : Q s) : Q (learn s d cur) := by
  unfold learn
  split
  · exact h.congr rfl rfl rfl rfl rfl
  · exact h

/-- A packet accepted. -/
theorem success_Q {N : Nat} {s : St} {v : Val} {w : Nat} {p : Pend} {cur : Nat} (hN : N + 1 < 2 ^ 63) (h : Inv s) (hp : P N 1 (some p.node) s) (hi : s.cfg.inOrder = false)
    (hs : s.stopped = false) (hn : NoTerm s.log) (hm : p ∈ s.pending) (hvn : v.node = p.node) (hrec : Obs.received v.data ∈ s.log) (hseg : v.data.seg = some cur)
    (hcur : s.received ≠ [] → cur = p.seg) (hcN : cur ≤ N) (hd : v.data.final = some (some N))
    (hlate : s.cfg.late = false) (hnd : (s.pending.map Pend.iid).Nodup) (hlt : ∀ p ∈ s.pending, p.iid < s.nextId) (hretx : s.retx = [])
    (hcov : ∀ q ∈ s.pending, q.node ≠ p.node → Live.mk q.iid q.kind ∈ s.live) :
    ((success s v w false).stopped = true ∧ s.received.length + 1 = N + 1 ∧ (success s v w false).pending = [] ∧
      ∃ buf, (success s v w false).log = s.log ++ [.validated v.data, .complete buf]) ∨
    ((success s v w false).stopped = false ∧ s.received.length + 1 < N + 1 ∧ Q (success s v w false) ∧
      (success s v w false).received.length = s.received.length + 1 ∧ (success s v w false).log = s.log ++ [.validated v.data]) := by
  unfold success
  rw [if_neg (by rw [hs]; simp)]
  have hfd : s.pending.find? (fun p => p.node = v.node) = some p := by
    cases hf : s.pending.find? (fun p => p.node = v.node) with
    | none => exact absurd (by simpa using hvn.symm) (List.find?_eq_none.1 hf p hm)
    | some q =>
      obtain ⟨q1, q2⟩ := find_mem hf
      simp only [decide_eq_true_eq] at q2
      rw [eq_of_nodup_map (nodes_nodup h) q1 hm (by rw [q2, hvn])]
  rw [hfd]
  simp only
  have hc0 : v.data.seg.getD 0 = cur := by rw [hseg]; rfl
  rw [hc0]
  have hb : hasKey cur s.buffer = false :=
    stored_fresh h (v := v) (p := p) (Or.inr (fun hr => by rw [hseg, hcur hr])) hm hvn.symm hseg
  have hnot : cur ∉ s.received := by
    intro hmem
    rcases h.recd cur hmem with h1 | h1
    · rw [hb] at h1; simp at h1
    · rw [hi] at h1; simp at h1
  obtain ⟨i1, i2⟩ := store_inv h hn hm hcur hseg hrec hb
  obtain ⟨j1, j2⟩ := store_P (c := v.data.content) h hp hi hm hcur hb hcN
  have f := store_fields s p v.data.content cur hb
  have e : signal (store s p v.data.content cur) (.validated v.data) false = { store s p v.data.content cur with log := s.log ++ [.validated v.data] } := by
    unfold signal; rw [if_neg (by simp), f.1]
  rw [e]
  have hQ : Q (store s p v.data.content cur) := by
    obtain ⟨f1, f2, f3, f4, f5, f6, f7, f8, f9, f10, f11, f12, f13, f14, f15, f16, f17, f18, f19⟩ := f
    refine ⟨by rw [f9]; exact hlate, ?_, ?_, by rw [f7]; exact hretx, ?_⟩
    · rw [f18]; exact hnd.sublist (List.Sublist.map _ List.filter_sublist)
    · rw [f18, f2]; exact fun q hq => hlt q (List.mem_filter.1 hq).1
    · rw [f18, f19]
      intro q hq
      obtain ⟨h1, h2⟩ := List.mem_filter.1 hq
      simp only [ne_eq, decide_not, Bool.not_eq_true', decide_eq_false_iff_not] at h2
      simp only [cancel, hlate, Bool.false_eq_true, if_false]
      refine List.mem_filter.2 ⟨hcov q h1 h2, ?_⟩
      simp only [List.mem_singleton, decide_eq_true_eq]
      intro he
      have := eq_of_nodup_map hnd h1 hm he
      subst this
      exact h2 rfl
  generalize hs1 : ({ store s p v.data.content cur with log := s.log ++ [.validated v.data] } : St) = s1 at *
  have k0 : Q s1 := by subst hs1; exact hQ.congr rfl rfl rfl rfl rfl
  have k1 : P N 0 none s1 := by subst hs1; exact j1.congr rfl rfl rfl rfl rfl rfl rfl rfl
  have k2 : s1.received ≠ [] := by subst hs1; exact i2
  have k3 : s1.received.length = 1 → s1.next = 0 ∧ s1.received = [cur] := by subst hs1; exact j2
  have k4 : s1.cfg = s.cfg := by subst hs1; exact f.2.2.2.2.2.2.2.2.1
  have k5 : NoTerm s1.log := by subst hs1; exact noTerm_snoc hn rfl
  have k6 : s1.received.length = s.received.length + 1 := by
    subst hs1
    show (store s p v.data.content cur).received.length = _
    rw [f.2.2.2.1, if_neg hnot]; simp
  have k7 : s1.stopped = false := by
    subst hs1
    show (store s p v.data.content cur).stopped = _
    rw [f.2.2.2.2.2.2.2.2.2.2.2.2.2.2.2.2.1]; exact hs
  unfold afterStored
  rw [if_neg (by rw [hd]; simp)]
  have c := takeFinal_fields s1 v.data
  have g1 := takeFinal_inv (d := v.data) i1
  have g3 := deliverFrom_inv (cur := cur) g1 (by rw [c.2.2.2.1]; exact k2) (by rw [c.1]; exact k5)
  have hdf : deliverFrom (takeFinal s1 v.data) cur = takeFinal s1 v.data := by
    unfold deliverFrom
    rw [if_neg]
    rw [c.2.2.2.2.2.2.2.2.1, k4, hi]; simp
  rw [hdf] at g3 ⊢
  have hr3 : (takeFinal s1 v.data).received ≠ [] := by rw [c.2.2.2.1]; exact k2
  have l := learn_fields (takeFinal s1 v.data) v.data cur
  have ls : (learn (takeFinal s1 v.data) v.data cur).stopped = (takeFinal s1 v.data).stopped := by unfold learn; split <;> rfl
  have hlen : (learn (takeFinal s1 v.data) v.data cur).received.length = s.received.length + 1 := by rw [l.2.1, c.2.2.2.1, k6]
  have := fetchWindow_Q (N := N) (w := w) hN (learn_inv g3 hr3)
    (learn_P (cur := cur) (d := v.data) (takeFinal_P hN k1 (by rw [hd]; intro f hf; simpa using hf.symm)) (by rw [c.2.2.2.1, c.2.2.2.2.2.1]; exact k3))
    (learn_Q (takeFinal_Q k0))
    (by rw [l.2.2.2.1, c.2.2.2.2.2.2.2.2.1, k4]; exact hi)
    (by rw [l.2.2.1, c.2.2.2.2.2.2.2.2.2.2.2.2.2.2.1, hd]; exact Nat.mod_eq_of_lt (by omega))
    (by rw [ls, c.2.2.2.2.2.2.2.2.2.1]; exact k7)
  rw [hlen] at this
  have hlog : (learn (takeFinal s1 v.data) v.data cur).log = s.log ++ [.validated v.data] := by rw [l.1, c.1]; subst hs1; rfl
  rw [hlog] at this
  rcases this with ⟨t1, t2, t4, buf, t3⟩ | ⟨t1, t2, t3, t4, t5⟩
  · exact Or.inl ⟨t2, t1, t4, buf, by rw [t3]; simp⟩
  · exact Or.inr ⟨t2, t1, t3, by rw [t4, hlen], t5⟩

/-- An Interest in the face is answered with the packet asked for. -/
theorem onData_Q {N : Nat} {s : St} {l : Live} {d : Data} {w k : Nat} (hN : N + 1 < 2 ^ 63) (h : Good s) (hl : GoodL s) (hd : Def s) (hg : Going N s)
    (hq : Q s) (hs : s.stopped = false) (hm : l ∈ s.live) (hans : answers d l.kind = true) (hk : d.seg = some k) (hkN : k ≤ N)
    (hfin : d.final = some (some N)) :
    ((onData s l.iid d (some true) w false false).stopped = true ∧ s.received.length + 1 = N + 1 ∧
      (onData s l.iid d (some true) w false false).pending = [] ∧
      ∃ buf, (onData s l.iid d (some true) w false false).log = s.log ++ [.received d, .validated d, .complete buf]) ∨
    ((onData s l.iid d (some true) w false false).stopped = false ∧ s.received.length + 1 < N + 1 ∧
      Q (onData s l.iid d (some true) w false false) ∧
      (onData s l.iid d (some true) w false false).received.length = s.received.length + 1 ∧
      (onData s l.iid d (some true) w false false).log = s.log ++ [.received d, .validated d]) := by
  obtain ⟨hi, hg⟩ := hg
  obtain ⟨h, hf, ht, ha⟩ := h
  have hn := term_noTerm ht hs
  obtain ⟨hP, hT⟩ : P N 0 none s ∧ T s := by
    rcases hg with hg | hg
    · rw [hs] at hg; simp at hg
    · exact hg
  obtain ⟨q0, hq0, hqi, hqk⟩ := hl.1.live l hm
  unfold onData
  split
  · rename_i hnone
    exact absurd (by simp) (List.find?_eq_none.1 hnone l hm)
  · rename_i l' hfl
    have hl' : l' = l := by
      have h1 := List.mem_of_find?_eq_some hfl
      have h2 : l'.iid = l.iid := by simpa using List.find?_some hfl
      obtain ⟨q1, hq1, hqi1, hqk1⟩ := hl.1.live l' h1
      have := eq_of_nodup_map hl.1.iidNodup hq1 hq0 (by rw [hqi1, hqi, h2])
      subst this
      cases l'; cases l
      simp_all
    subst hl'
    rw [if_pos hans]
    simp only
    rw [if_neg (by rw [hs]; simp)]
    simp only [hk]
    have hkind := hl.1.kind q0 hq0
    have htarget : dataTarget { s with live := s.live.filter (fun x => x.iid ≠ l'.iid), inFlight := s.inFlight - 1 } k = some q0 := by
      unfold dataTarget
      simp only
      by_cases hr : s.received = []
      · have h0 : ∀ p ∈ s.pending, p.seg = 0 := fun p hp => (h.recNil hr).2.1 _ (mem_core hp)
        rw [if_pos hr]
        cases hfi : first s.pending with
        | none =>
          unfold first at hfi
          refine absurd ?_ (List.find?_eq_none.1 hfi q0 hq0)
          rw [List.all_eq_true]
          intro q' hq'
          rw [h0 q0 hq0]; simp
        | some x =>
          have hx := first_mem hfi
          rw [eq_of_nodup_map (segs_nodup h) hx hq0 (by rw [h0 x hx, h0 q0 hq0])]
      · rw [if_neg hr]
        rw [if_neg hr, hqk] at hkind
        rw [hkind] at hans
        simp only [answers, Bool.and_eq_true, decide_eq_true_eq] at hans
        rw [hk] at hans
        have hks : k = q0.seg := by simpa using hans.2
        cases hfi : s.pending.find? (fun p => p.seg = k) with
        | none => exact absurd (by simp [hks]) (List.find?_eq_none.1 hfi q0 hq0)
        | some x =>
          obtain ⟨x1, x2⟩ := find_mem hfi
          have x3 : x.seg = k := by simpa using x2
          rw [eq_of_nodup_map (segs_nodup h) x1 hq0 (by rw [x3, hks])]
    rw [htarget]
    simp only
    obtain ⟨_, p2⟩ := dataTarget_mem htarget
    rw [validate_some _ _ _ _ _ (by exact hd.val)]
    simp only [if_true]
    have i1 : Inv { unschedule { s with live := s.live.filter (fun x => x.iid ≠ l'.iid), inFlight := s.inFlight - 1 } q0.node with log := s.log ++ [.received d] } :=
      (Inv.log (s := unschedule { s with live := s.live.filter (fun x => x.iid ≠ l'.iid), inFlight := s.inFlight - 1 } q0.node)
        (unschedule_inv (h.congr rfl rfl rfl rfl rfl rfl rfl rfl rfl rfl)) ⟨hn, trivial⟩ (by simp [delivered, List.filterMap_append]))
    have i2 : P N 1 (some q0.node) (unschedule { s with live := s.live.filter (fun x => x.iid ≠ l'.iid), inFlight := s.inFlight - 1 } q0.node) :=
      unschedule_P (hP.shift 1 (by simp only; omega) rfl rfl rfl rfl rfl rfl rfl) (Or.inl rfl)
    obtain ⟨q, hqm, hqs, hqn, _⟩ := unschedule_mem (s := { s with live := s.live.filter (fun x => x.iid ≠ l'.iid), inFlight := s.inFlight - 1 }) (n := q0.node) hq0
    have hpend : (unschedule { s with live := s.live.filter (fun x => x.iid ≠ l'.iid), inFlight := s.inFlight - 1 } q0.node).pending =
        s.pending.map (fun q => if q.node = q0.node then { q with timer := false } else q) := rfl
    generalize ht2 : ({ unschedule { s with live := s.live.filter (fun x => x.iid ≠ l'.iid), inFlight := s.inFlight - 1 } q0.node with log := s.log ++ [.received d], nextId := s.nextId + 1 } : St) = t
    have t1 : Inv t := by
      subst ht2
      obtain ⟨a, b, c, dd, e, f, g, i, j, kk, l, m, n⟩ := i1
      refine ⟨a, b, c, ?_, ?_, f, g, i, j, kk, l, m, n⟩
      · intro q hq; have := dd q hq; show q.2 < s.nextId + 1; exact Nat.lt_succ_of_lt this
      · intro v hv; have := e v hv; show v.node < s.nextId + 1; exact Nat.lt_succ_of_lt this
    have t2 : P N 1 (some q.node) t := by
      rw [hqn]; subst ht2; exact i2.congr rfl rfl rfl rfl rfl rfl rfl rfl
    have hqt : q ∈ t.pending := by subst ht2; exact hqm
    have hrt : t.received = s.received := by subst ht2; rfl
    have hmap : t.pending.map Pend.iid = s.pending.map Pend.iid := by
      subst ht2
      show ((s.pending.map (fun q => if q.node = q0.node then { q with timer := false } else q)).map Pend.iid) = _
      rw [List.map_map]
      apply List.map_congr_left
      intro x _
      simp only [Function.comp]
      split <;> rfl
    have := success_Q (v := ⟨s.nextId, q0.node, d⟩) (p := q) (cur := k) (w := w) hN t1 t2 (by subst ht2; exact hi) (by subst ht2; exact hs)
      (by subst ht2; exact noTerm_snoc hn rfl) hqt hqn.symm (by subst ht2; simp) hk
      (by rw [hrt]; intro hr; rw [hqs]; exact (p2 hr).symm) hkN hfin
      (by subst ht2; exact hq.late) (by rw [hmap]; exact hq.iidNodup)
      (by
        intro x hx
        have hx' : x.iid ∈ t.pending.map Pend.iid := List.mem_map_of_mem hx
        rw [hmap] at hx'
        obtain ⟨y, hy, hye⟩ := List.mem_map.1 hx'
        have h1 := hq.iidLt y hy
        have h2 : t.nextId = s.nextId + 1 := by subst ht2; rfl
        omega)
      (by subst ht2; exact hq.retx)
      (by
        intro x hx hxn
        rw [hqn] at hxn
        subst ht2
        obtain ⟨y, hy, hye⟩ := List.mem_map.1 (show x ∈ s.pending.map (fun q => if q.node = q0.node then { q with timer := false } else q) from hx)
        have hyn : y.node ≠ q0.node := by
          intro he
          rw [if_pos he] at hye
          exact hxn (by rw [← hye]; exact he)
        rw [if_neg hyn] at hye
        subst hye
        refine List.mem_filter.2 ⟨hq.cover y hy, ?_⟩
        simp only [ne_eq, decide_eq_true_eq]
        intro he
        have := eq_of_nodup_map hq.iidNodup hy hq0 (by rw [hqi]; exact he)
        subst this
        exact hyn rfl)
    have hlt : t.log = s.log ++ [.received d] := by subst ht2; rfl
    rw [hrt, hlt] at this
    simpa using this

theorem start_Q (cfg : Cfg) (hc : cfg.late = false) : Q (start cfg) := by
  unfold start
  apply send_Q
  exact ⟨hc, List.nodup_nil, by simp, rfl, by simp⟩

end Ndn.Fetch
