import Verif.Fetch.Live
/- No undefined behaviour, and a timer always runs, if validation is synchronous. -/
namespace Ndn.Fetch
open Spec

/-! Undefined behaviour -/

theorem finalize_fields (s : St) : (finalize s).validating = s.validating ∧ (finalize s).ub = s.ub ∧ (finalize s).cfg = s.cfg ∧ (finalize s).stopped = true := by
  unfold finalize
  split
  · have f := stop_fields { s with log := s.log ++ [.inOrderComplete] }
    exact ⟨f.2.2.1, f.2.2.2.2.2.2.2.2.2.2.2.2.2.2.2, f.2.2.2.2.2.2.2.2.1, stop_stopped _⟩
  · have f := stop_fields { s with log := s.log ++ [.complete ((List.range (toI64 s.nSeg).toNat).map fun i => (lookup i s.buffer).getD []).flatten] }
    exact ⟨f.2.2.1, f.2.2.2.2.2.2.2.2.2.2.2.2.2.2.2, f.2.2.2.2.2.2.2.2.1, stop_stopped _⟩

theorem fetchWindow_fields (s : St) (w : Nat) : (fetchWindow s w).validating = s.validating ∧ (fetchWindow s w).cfg = s.cfg := by
  rw [fetchWindow_eq]
  split
  · have f := finalize_fields s
    exact ⟨f.1, f.2.2.1⟩
  · have c := sends_fields _ true (winBase s w) _ (rfl : _ = (takeRetx s.pending (avail s w) (winRetx s)).1.foldl (fun s k => send s k (.exact s.versioned k) true) (winBase s w))
    have d := sends_fields (takeNew s.buffer s.nSeg (takeRetx s.pending (avail s w) (winRetx s)).2.1.toNat s.next).1 false ((takeRetx s.pending (avail s w) (winRetx s)).1.foldl (fun s k => send s k (.exact s.versioned k) true) (winBase s w)) _ rfl
    exact ⟨by rw [d.2.1, c.2.1]; rfl, by rw [d.2.2.2.2.2.2.2.1, c.2.2.2.2.2.2.2.1]; rfl⟩

theorem learn_val (s : St) (d : Data) (cur : Nat) : (learn s d cur).validating = s.validating := by unfold learn; split <;> rfl

theorem afterStored_fields (s : St) (d : Data) (cur w : Nat) :
    (afterStored s d cur w).validating = s.validating ∧ (afterStored s d cur w).cfg = s.cfg := by
  unfold afterStored
  split
  · have f := stop_fields { s with log := s.log ++ [.error 5] }
    exact ⟨f.2.2.1, f.2.2.2.2.2.2.2.2.1⟩
  · have f := fetchWindow_fields (learn (deliverFrom (takeFinal s d) cur) d cur) w
    have c := takeFinal_fields s d
    have e := deliverFrom_fields (takeFinal s d) cur
    have l := learn_fields (deliverFrom (takeFinal s d) cur) d cur
    refine ⟨?_, ?_⟩
    · rw [f.1, learn_val, e.2.2.2.2.2.2.1, c.2.2.1]
    · rw [f.2, l.2.2.2.1, e.1, c.2.2.2.2.2.2.2.2.1]

theorem copyTo_fields (s : St) (k : Nat) (c : Bytes) : (copyTo s k c).validating = s.validating ∧ (copyTo s k c).cfg = s.cfg := by
  unfold copyTo; split <;> simp

theorem success_fields (s : St) (v : Val) (w : Nat) (b : Bool) : (success s v w b).validating = s.validating ∧ (success s v w b).cfg = s.cfg := by
  unfold success
  split
  · exact ⟨rfl, rfl⟩
  · split
    · exact ⟨rfl, rfl⟩
    · rename_i p _
      have f := afterStored_fields (signal (store s p v.data.content (v.data.seg.getD 0)) (.validated v.data) b) v.data (v.data.seg.getD 0) w
      have g := signal_fields (store s p v.data.content (v.data.seg.getD 0)) (.validated v.data) b
      refine ⟨?_, ?_⟩
      · rw [f.1, g.2.2.1]; unfold store; rw [(copyTo_fields _ _ _).1]; simp
      · rw [f.2, g.2.2.2.2.2.2.2.2.1]; unfold store; rw [(copyTo_fields _ _ _).2]; simp

theorem error_fields (s : St) (c : Nat) : (error s c).validating = s.validating ∧ (error s c).cfg = s.cfg ∧ (error s c).ub = s.ub ∧ (error s c).stopped = true := by
  have f := stop_fields { s with log := s.log ++ [.error c] }
  exact ⟨f.2.2.1, f.2.2.2.2.2.2.2.2.1, f.2.2.2.2.2.2.2.2.2.2.2.2.2.2.2, stop_stopped _⟩

theorem result_cfg (s : St) (vid : Nat) (ok : Bool) (w : Nat) (b : Bool) : (result s vid ok w b).cfg = s.cfg := by
  unfold result
  split
  · rfl
  · simp only
    split
    · exact (success_fields _ _ _ _).2
    · split
      · rfl
      · exact (error_fields _ _).2.1

theorem afterLoss_fields (s : St) (k : Kind) (w : Nat) : (afterLoss s k w).validating = s.validating ∧ (afterLoss s k w).cfg = s.cfg := by
  unfold afterLoss
  split
  · exact ⟨(error_fields _ _).1, (error_fields _ _).2.1⟩
  · split
    · exact ⟨rfl, rfl⟩
    · simp only
      split
      · have f := send_fields (unschedule s (by assumption : Pend).node) 0 .base true
        exact ⟨f.2.1, f.2.2.2.2.2.2.2.1⟩
      · exact fetchWindow_fields _ _

/-- The synchronous validation of a packet. -/
theorem validate_some (s : St) (p : Pend) (d : Data) (ok : Bool) (w : Nat) (hv : s.validating = []) :
    validate s p d (some ok) w false false =
      (let t : St := { unschedule s p.node with log := s.log ++ [.received d], nextId := s.nextId + 1 }
       if ok then success t ⟨s.nextId, p.node, d⟩ w false else if s.stopped then t else error t 3) := by
  have h1 : signal (unschedule s p.node) (.received d) false = { unschedule s p.node with log := s.log ++ [.received d] } := rfl
  unfold validate
  simp only [h1]
  have h2 : (unschedule s p.node).validating = [] := hv
  have h3 : (unschedule s p.node).nextId = s.nextId := rfl
  simp only [h2, h3, List.nil_append]
  unfold result
  simp only [List.find?_cons, decide_true]
  have h4 : ([⟨s.nextId, p.node, d⟩] : List Val).filter (fun x => x.vid ≠ s.nextId) = [] := by simp
  rw [h4, ← h2]
  rfl

/-- What is assumed for definedness. -/
structure Def (s : St) : Prop where
  ub : s.ub = false
  val : s.validating = []
  base : s.cfg.baseSeg = none

theorem Def.mk' {s t : St} (h : Def s) (h1 : t.ub = s.ub) (h2 : t.validating = s.validating) (h3 : t.cfg = s.cfg) : Def t :=
  ⟨by rw [h1]; exact h.ub, by rw [h2]; exact h.val, by rw [h3]; exact h.base⟩

theorem onData_def {s : St} {iid : Nat} {d : Data} {ok : Bool} {w : Nat} (h : Good s) (hl : GoodL s) (hd : Def s) :
    Def (onData s iid d (some ok) w false false) := by
  obtain ⟨h, hf, ht, ha⟩ := h
  unfold onData
  split
  · exact hd
  · rename_i l hfl
    split
    · rename_i hans
      simp only
      split
      · exact hd.mk' rfl rfl rfl
      · rename_i hs
        have hs' : s.stopped = false := by simpa using hs
        split
        · exact hd.mk' (error_fields _ _).2.2.1 (error_fields _ _).1 (error_fields _ _).2.1
        · rename_i k hk
          split
          · exact hd.mk' rfl rfl rfl
          · rename_i p hp
            obtain ⟨p1, p2⟩ := dataTarget_mem hp
            rw [validate_some _ _ _ _ _ (by exact hd.val)]
            simp only
            split
            · have hn := term_noTerm ht hs'
              have i1 : Inv { unschedule { s with live := s.live.filter (fun x => x.iid ≠ iid), inFlight := s.inFlight - 1 } p.node with log := s.log ++ [.received d] } :=
                (Inv.log (s := unschedule { s with live := s.live.filter (fun x => x.iid ≠ iid), inFlight := s.inFlight - 1 } p.node)
                  (unschedule_inv (h.congr rfl rfl rfl rfl rfl rfl rfl rfl rfl rfl)) ⟨hn, trivial⟩ (by simp [delivered, List.filterMap_append]))
              have i2 : L (unschedule { s with live := s.live.filter (fun x => x.iid ≠ iid), inFlight := s.inFlight - 1 } p.node) :=
                unschedule_L (hl.1.congr rfl rfl rfl List.filter_sublist rfl rfl (List.Sublist.refl _))
              have ho := goodL_obj hl hs'
              generalize ht2 : ({ unschedule { s with live := s.live.filter (fun x => x.iid ≠ iid), inFlight := s.inFlight - 1 } p.node with log := s.log ++ [.received d], nextId := s.nextId + 1 } : St) = t
              have t1 : Inv t := by
                subst ht2
                obtain ⟨a, b, c, dd, e, f, g, i, j, kk, l, m, n⟩ := i1
                refine ⟨a, b, c, ?_, ?_, f, g, i, j, kk, l, m, n⟩
                · intro q hq; have := dd q hq; show q.2 < s.nextId + 1; exact Nat.lt_succ_of_lt this
                · intro v hv; have := e v hv; show v.node < s.nextId + 1; exact Nat.lt_succ_of_lt this
              have t2 : L t := by
                subst ht2
                obtain ⟨a, b, c, dd, e, f⟩ := i2
                refine ⟨a, b, ?_, dd, e, f⟩
                intro q hq; have := c q hq; show q.iid < s.nextId + 1; exact Nat.lt_succ_of_lt this
              have tub : t.ub = s.ub := by subst ht2; rfl
              have tval : t.validating = s.validating := by subst ht2; rfl
              have tcfg : t.cfg = s.cfg := by subst ht2; rfl
              have tlog : t.log = s.log ++ [.received d] := by subst ht2; rfl
              have tst : t.stopped = false := by subst ht2; exact hs'
              have trec : t.received = s.received := by subst ht2; rfl
              have tver : t.versioned = s.versioned := by subst ht2; rfl
              have tcore : core t = core s := by
                subst ht2
                exact unschedule_core { s with live := s.live.filter (fun x => x.iid ≠ iid), inFlight := s.inFlight - 1 } p.node
              have tobj : Obj t := by
                apply obj_log ho _ tver trec
                intro x hx; rw [tlog] at hx; simpa using hx
              have hmem : ∃ q ∈ t.pending, q.node = p.node := by
                have : (p.seg, p.node) ∈ core t := by rw [tcore]; exact mem_core p1
                obtain ⟨q, hq, he⟩ := List.mem_map.1 this
                exact ⟨q, hq, by simpa using congrArg Prod.snd he⟩
              -- the packet's object
              have hobj : s.received ≠ [] → d.obj = s.versioned := by
                intro hr
                have hlm : l ∈ s.live := List.mem_of_find?_eq_some hfl
                obtain ⟨q, hq, _, hqk⟩ := hl.1.live l hlm
                have := hl.1.kind q hq
                rw [if_neg hr, hqk] at this
                rw [this] at hans
                simp only [answers, Bool.and_eq_true, decide_eq_true_eq] at hans
                exact hans.1
              have hsuc := success_L (v := ⟨s.nextId, p.node, d⟩) (w := w) (b := false) t1 (Or.inl (by rw [tlog]; exact noTerm_snoc hn rfl)) ⟨t2, tobj.same, Or.inr tobj⟩
                (by rw [tlog]; simp) ⟨k, hk⟩
                (by
                  intro hr q hq hqn
                  rw [tcore] at hq
                  rw [trec] at hr
                  have := eq_of_nodup_map h.nodeNodup hq (mem_core p1) hqn
                  rw [this]
                  simp only
                  rw [p2 hr]; exact hk)
                (by intro hr _ _ _; rw [tver]; exact hobj (by rw [← trec]; exact hr))
              refine ⟨?_, ?_, ?_⟩
              · show (success t _ w false).ub = false
                rw [hsuc.2 (Or.inl hmem), tub]; exact hd.ub
              · show (success t _ w false).validating = []
                rw [(success_fields _ _ _ _).1, tval]; exact hd.val
              · show (success t _ w false).cfg.baseSeg = none
                rw [(success_fields _ _ _ _).2, tcfg]; exact hd.base
            · refine hd.mk' (error_fields _ _).2.2.1 ?_ (error_fields _ _).2.1
              rw [(error_fields _ _).1]; rfl
    · exact hd

theorem lossTarget_some {s : St} {k : Kind} (h : Inv s) (hl : L s) (hb : s.cfg.baseSeg = none) {p : Pend} (hp : p ∈ s.pending) (hk : p.kind = k) :
    lossTarget s k = some p := by
  have hkind := hl.kind p hp
  rw [hk] at hkind
  have hf : ∀ q, s.pending.find? (fun p' => p'.seg = p.seg) = some q → q = p := by
    intro q hq
    obtain ⟨q1, q2⟩ := find_mem hq
    exact eq_of_nodup_map (segs_nodup h) q1 hp (by simpa using q2)
  unfold lossTarget
  by_cases hr : s.received = []
  · rw [if_pos hr] at hkind
    rw [hkind]
    simp only [nameSeg, hb]
    unfold first
    cases hfd : s.pending.find? (fun p => s.pending.all (fun q => p.seg ≤ q.seg)) with
    | some q =>
      have hq : q ∈ s.pending := List.mem_of_find?_eq_some hfd
      have h1 := (h.recNil hr).2.1 _ (mem_core hp)
      have h2 := (h.recNil hr).2.1 _ (mem_core hq)
      simp only at h1 h2
      rw [eq_of_nodup_map (segs_nodup h) hq hp (by rw [h1, h2])]
    | none =>
      exfalso
      have := List.find?_eq_none.1 hfd p hp
      apply this
      rw [List.all_eq_true]
      intro q hq
      have h1 := (h.recNil hr).2.1 _ (mem_core hp)
      simp only at h1
      simp [h1]
  · rw [if_neg hr] at hkind
    rw [hkind]
    simp only [nameSeg]
    obtain ⟨q, hq⟩ := any_seg (any_of_mem hp)
    rw [hq, hf q hq]

theorem onNack_def {s : St} {iid : Nat} {g : Bool} {w : Nat} (h : Good s) (hl : GoodL s) (hd : Def s) :
    Def (onNack s iid g w false) := by
  obtain ⟨h, hf, ht, ha⟩ := h
  unfold onNack
  split
  · exact hd
  · rename_i l hfl
    simp only
    split
    · exact hd.mk' rfl rfl rfl
    · rename_i hs
      have hs' : s.stopped = false := by simpa using hs
      have hn := term_noTerm ht hs'
      have h' : Inv { s with live := s.live.filter (fun x => x.iid ≠ iid) } := h.congr rfl rfl rfl rfl rfl rfl rfl rfl rfl rfl
      have l' : L { s with live := s.live.filter (fun x => x.iid ≠ iid) } := hl.1.congr rfl rfl rfl List.filter_sublist rfl rfl (List.Sublist.refl _)
      have g1 : Inv { s with live := s.live.filter (fun x => x.iid ≠ iid), log := s.log ++ [.nacked] } :=
        Inv.log h' ⟨hn, trivial⟩ (by simp [delivered, List.filterMap_append])
      have e : signal { s with live := s.live.filter (fun x => x.iid ≠ iid) } .nacked false = { s with live := s.live.filter (fun x => x.iid ≠ iid), log := s.log ++ [.nacked] } := rfl
      rw [e]
      have o1 : Obj { s with live := s.live.filter (fun x => x.iid ≠ iid), log := s.log ++ [.nacked] } :=
        obj_log (goodL_obj hl hs') (by intro d hd; simpa using hd) rfl rfl
      generalize ht2 : ({ s with live := s.live.filter (fun x => x.iid ≠ iid), log := s.log ++ [.nacked], inFlight := s.inFlight - 1 } : St) = t
      have t1 : Inv t := by subst ht2; exact g1.congr rfl rfl rfl rfl rfl rfl rfl rfl rfl rfl
      have t2 : L t := by subst ht2; exact l'.congr rfl rfl rfl (List.Sublist.refl _) rfl rfl (List.Sublist.refl _)
      have t3 : Obj t := by subst ht2; exact obj_log o1 (fun _ h => h) rfl rfl
      have td : Def t := by subst ht2; exact hd.mk' rfl rfl rfl
      have tp : t.pending = s.pending := by subst ht2; rfl
      have key : Def (if g = true then afterLoss t l.kind w else error t 4) := by
        split
        · obtain ⟨p, hp, _, hk⟩ := hl.1.live l (List.mem_of_find?_eq_some hfl)
          have hlt := lossTarget_some t1 t2 td.base (by rw [tp]; exact hp) hk
          exact td.mk' ((afterLoss_L t1 t2 t3).2 (by rw [hlt]; simp)) (afterLoss_fields _ _ _).1 (afterLoss_fields _ _ _).2
        · exact td.mk' (error_fields _ _).2.2.1 (error_fields _ _).1 (error_fields _ _).2.1
      subst ht2
      exact key

theorem mem_unschedule {s : St} {n : Nat} {q : Pend} (h : q ∈ (unschedule s n).pending) :
    ∃ p ∈ s.pending, q.seg = p.seg ∧ q.node = p.node ∧ q.iid = p.iid ∧ q.kind = p.kind ∧
      ((p.node = n ∧ q.timer = false) ∨ (p.node ≠ n ∧ q = p)) := by
  simp only [unschedule] at h
  obtain ⟨p, hp, rfl⟩ := List.mem_map.1 h
  refine ⟨p, hp, ?_⟩
  by_cases hn : p.node = n
  · simp [hn]
  · simp [hn]

theorem unschedule_mem {s : St} {n : Nat} {p : Pend} (h : p ∈ s.pending) :
    ∃ q ∈ (unschedule s n).pending, q.seg = p.seg ∧ q.node = p.node ∧ q.kind = p.kind ∧ (p.node ≠ n → q = p) := by
  refine ⟨_, List.mem_map.2 ⟨p, h, rfl⟩, ?_⟩
  by_cases hn : p.node = n
  · simp [hn]
  · simp [hn]

theorem onTimeout_def {s : St} {n w : Nat} (h : Good s) (hl : GoodL s) (hd : Def s) :
    Def (onTimeout s n w false) := by
  obtain ⟨h, hf, ht, ha⟩ := h
  unfold onTimeout
  split
  · exact hd
  · rename_i p hp
    obtain ⟨hpm, _⟩ := find_mem hp
    simp only
    split
    · exact hd.mk' rfl rfl rfl
    · rename_i hs
      have hs' : s.stopped = false := by simpa [unschedule] using hs
      have hn := term_noTerm ht hs'
      have h' := unschedule_inv (n := p.node) h
      have l' := unschedule_L (n := p.node) hl.1
      have g1 : Inv { unschedule s p.node with log := s.log ++ [.timedOut] } :=
        Inv.log (s := unschedule s p.node) h' ⟨hn, trivial⟩ (by simp [delivered, List.filterMap_append])
      have e : signal (unschedule s p.node) .timedOut false = { unschedule s p.node with log := s.log ++ [.timedOut] } := rfl
      rw [e]
      generalize ht2 : ({ unschedule s p.node with log := s.log ++ [.timedOut], inFlight := s.inFlight - 1 } : St) = t
      have t1 : Inv t := by subst ht2; exact g1.congr rfl rfl rfl rfl rfl rfl rfl rfl rfl rfl
      have t2 : L t := by subst ht2; exact l'.congr rfl rfl rfl (List.Sublist.refl _) rfl rfl (List.Sublist.refl _)
      have t3 : Obj t := by
        subst ht2
        exact obj_log (goodL_obj hl hs') (by intro d hd; simpa using hd) rfl rfl
      have td : Def t := by subst ht2; exact hd.mk' rfl rfl rfl
      have tp : t.pending = (unschedule s p.node).pending := by subst ht2; rfl
      obtain ⟨q, hq, _, _, hk, _⟩ := unschedule_mem (n := p.node) hpm
      have hlt := lossTarget_some t1 t2 td.base (by rw [tp]; exact hq) hk
      have key : Def (afterLoss t p.kind w) :=
        td.mk' ((afterLoss_L t1 t2 t3).2 (by rw [hlt]; simp)) (afterLoss_fields _ _ _).1 (afterLoss_fields _ _ _).2
      subst ht2
      exact key

theorem step_def {s : St} {e : Ev} (h : Good s) (hl : GoodL s) (hd : Def s) (hc : Calm e) : Def (step s e) := by
  cases e with
  | data i d v w a b =>
    obtain ⟨hv, rfl, rfl⟩ := hc
    cases v with
    | none => exact absurd rfl hv
    | some ok => exact onData_def h hl hd
  | result v ok w a =>
    have : step s (.result v ok w a) = s := by
      simp only [step, result, hd.val, List.find?_nil]
    rw [this]; exact hd
  | nack i g w a => obtain rfl : a = false := hc; exact onNack_def h hl hd
  | timeout n w a => obtain rfl : a = false := hc; exact onTimeout_def h hl hd
  | lost i => exact hd.mk' rfl rfl rfl
  | stop =>
    have f := stop_fields s
    exact hd.mk' f.2.2.2.2.2.2.2.2.2.2.2.2.2.2.2 f.2.2.1 f.2.2.2.2.2.2.2.2.1
  | advance dt => exact hd.mk' rfl rfl rfl

theorem run_def {s : St} {evs : List Ev} (h : Good s) (hl : GoodL s) (hd : Def s) (he : ValidEvs evs) (hc : ∀ e ∈ evs, Calm e) : Def (run s evs) := by
  induction evs generalizing s with
  | nil => exact hd
  | cons e evs ih =>
    have he1 : ValidEvs [e] := by
      intro i d v w a b hm
      rw [List.mem_singleton] at hm
      exact he i d v w a b (by simp [hm])
    apply ih (step_good h he1) (step_L h hl he1) (step_def h hl hd (hc e (by simp)))
    · intro i d v w a b hm
      exact he i d v w a b (by simp [hm])
    · exact fun e he => hc e (by simp [he])

end Ndn.Fetch
