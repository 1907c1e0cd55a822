import Verif.Face.Sound
/-
Prefix registration (C80), for every history.
-/
namespace Ndn.Face
open Spec
variable {I D : Type} {E : Env I D}

structure InvR (s : St I D) : Prop where
  reg : ∀ id, s.cmds.countP (isRegister id) + s.log.countP (regAnswer id) = if 0 < id ∧ id ≤ s.lastReg then 1 else 0
  unreg : ∀ id, s.log.countP (unregCall id) =
    s.queue.countP (isUnregPost id) + s.cmds.countP (isUnregister id) + s.log.countP (unregAnswer id)
  ok : ∀ r ∈ s.regs, Obs.regOk r.id ∈ s.log
  nodup : (s.regs.map Reg.id).Nodup

theorem invR_init : InvR ({} : St I D) := by
  constructor <;> simp
  intro id h1 h2; omega

/-- Nothing about registrations. -/
def regFree : Obs I D → Bool
  | .regOk _ | .regFail _ | .unregOk _ | .unregFail _ | .callUnregister _ => false
  | _ => true

theorem regFree_counts {δ : List (Obs I D)} (h : ∀ o ∈ δ, regFree o = true) (id : Nat) :
    δ.countP (regAnswer id) = 0 ∧ δ.countP (unregAnswer id) = 0 ∧ δ.countP (unregCall id) = 0 := by
  refine ⟨?_, ?_, ?_⟩ <;>
  · rw [List.countP_eq_zero]
    intro o ho
    have := h o ho
    cases o <;> simp [regFree] at this <;> simp [regAnswer, unregAnswer, unregCall]

theorem invR_free {s s' : St I D} (h : InvR s) (δ : List (Obs I D)) (hl : s'.log = s.log ++ δ)
    (hδ : ∀ o ∈ δ, regFree o = true) (hc : s'.cmds = s.cmds) (hn : s'.lastReg = s.lastReg)
    (hq : ∀ id, s'.queue.countP (isUnregPost id) = s.queue.countP (isUnregPost id))
    (hr : s'.regs.Sublist s.regs) : InvR s' := by
  have c := regFree_counts hδ
  refine ⟨?_, ?_, ?_, (hr.map _).nodup h.nodup⟩
  · intro id
    rw [hl, hc, hn, List.countP_append, (c id).1]
    exact h.reg id
  · intro id
    rw [hl, hc, hq, List.countP_append, List.countP_append, (c id).2.1, (c id).2.2]
    exact h.unreg id
  · intro r hr'
    rw [hl]
    exact List.mem_append_left _ (h.ok r (hr.mem hr'))

theorem inert_regFree_satisfy (d : D) (boom : Nat → Bool) (es : List (Entry I)) :
    ∀ o ∈ (satisfy E d boom es).log, regFree o = true := by
  intro o ho
  obtain ⟨_, _, _, _, rfl⟩ := satisfy_log d boom es o ho
  rfl

theorem regFree_nackLoop (n : Nack I) (boom : Nat → Bool) (es : List (Entry I)) :
    ∀ o ∈ (nackLoop (D := D) E n boom es).log, regFree o = true := by
  intro o ho
  have := nackLoop_log n boom es o ho
  cases o <;> simp_all [nackish, regFree]

theorem regFree_dup (b : Bool) : ∀ o ∈ (dupObs b : List (Obs I D)), regFree o = true := by
  cases b <;> simp [dupObs, regFree]

theorem regFree_dispatch (boom : Nat → Bool) (e : Entry I) (fs : List (Nat × Filter)) :
    ∀ o ∈ (dispatch (D := D) E boom e fs).2, regFree o = true := by
  induction fs generalizing e with
  | nil => simp [dispatch]
  | cons x fs ih =>
    obtain ⟨fid, f⟩ := x
    intro o ho
    simp only [dispatch] at ho
    split at ho
    · exact ih _ o ho
    · split at ho
      · simp at ho; subst ho; rfl
      · rcases List.mem_cons.1 ho with rfl | ho
        · rfl
        · exact ih _ o ho

theorem eraseIdx_countP {α : Type} (p : α → Bool) (l : List α) (k : Nat) (x : α) (h : l[k]? = some x) :
    l.countP p = (l.eraseIdx k).countP p + (if p x then 1 else 0) := by
  induction l generalizing k with
  | nil => simp at h
  | cons y l ih =>
    cases k with
    | zero => simp at h; subst h; simp [List.countP_cons]
    | succ k =>
      simp at h
      simp only [List.eraseIdx_cons_succ, List.countP_cons, ih k h]
      omega

theorem invR_handle {s : St I D} (h : InvR s) (boom : Nat → Bool) (p : Post I D) (ps : List (Post I D))
    (hq : s.queue = p :: ps) : InvR (handle E boom { s with queue := ps } p) := by
  have hps : (∀ id, isUnregPost id p = false) → ∀ id, ps.countP (isUnregPost id) = s.queue.countP (isUnregPost id) := by
    intro hp id; rw [hq, List.countP_cons, hp id]; simp
  cases p with
  | express id i =>
    obtain ⟨e, δ, hs, hc, _, _, hd⟩ := doExpress_shape (E := E) boom { s with queue := ps } id i
    simp only [handle]
    rw [hs]
    refine invR_free h _ rfl ?_ rfl rfl (hps (fun _ => rfl)) (List.Sublist.refl _)
    intro o ho
    rcases List.mem_cons.1 ho with rfl | ho
    · rfl
    · rcases hd with ⟨_, _, rfl⟩ | ⟨_, _, rfl⟩
      · rcases List.mem_append.1 ho with ho | ho
        · exact regFree_dup _ _ ho
        · simp at ho; subst ho; rfl
      · rcases List.mem_append.1 ho with ho | ho
        · exact regFree_dup _ _ ho
        · rcases List.mem_cons.1 ho with rfl | ho
          · rfl
          · exact regFree_dispatch _ _ _ _ ho
  | cancel id => exact invR_free h [.cancelled id] rfl (by simp [regFree]) rfl rfl (hps (fun _ => rfl)) (List.Sublist.refl _)
  | removeAll => exact invR_free h [.cleared] rfl (by simp [regFree]) rfl rfl (hps (fun _ => rfl)) (List.Sublist.refl _)
  | putData d =>
    obtain ⟨δ, hs, hd⟩ := doPutData_shape (E := E) boom { s with queue := ps } d
    simp only [handle]
    rw [hs]
    refine invR_free h (.putData d :: (satisfy E d boom s.pit).log ++ δ) (by simp) ?_ rfl rfl (hps (fun _ => rfl)) (List.Sublist.refl _)
    intro o ho
    rcases List.mem_append.1 ho with ho | ho
    · rcases List.mem_cons.1 ho with rfl | ho
      · rfl
      · exact inert_regFree_satisfy _ _ _ _ ho
    · rcases hd with rfl | rfl | rfl <;> simp at ho <;> subst ho <;> rfl
  | putNack n =>
    obtain ⟨δ, hs, hd⟩ := doPutNack_shape (E := E) boom { s with queue := ps } n
    simp only [handle]
    rw [hs]
    refine invR_free h (.putNack n :: (nackLoop (D := D) E n boom s.pit).log ++ δ) (by simp) ?_ rfl rfl (hps (fun _ => rfl)) (List.Sublist.refl _)
    intro o ho
    rcases List.mem_append.1 ho with ho | ho
    · rcases List.mem_cons.1 ho with rfl | ho
      · rfl
      · exact regFree_nackLoop _ _ _ _ ho
    · rcases hd with rfl | rfl | ⟨m, rfl⟩ <;> simp at ho <;> subst ho <;> rfl
  | setFilter fid f =>
    refine invR_free h (.filterSet fid f :: dupObs (putFilter fid f s.filters).2) rfl ?_ rfl rfl (hps (fun _ => rfl)) (List.Sublist.refl _)
    intro o ho
    rcases List.mem_cons.1 ho with rfl | ho
    · rfl
    · exact regFree_dup _ _ ho
  | unsetFilter fid => exact invR_free h [.filterUnset fid] rfl (by simp [regFree]) rfl rfl (hps (fun _ => rfl)) (List.Sublist.refl _)
  | unregister id =>
    obtain ⟨δ, fs, cs, hs, hd⟩ := doUnregister_shape { s with queue := ps } id
    simp only [handle]
    rw [hs]
    have hun := h.unreg
    rw [hq] at hun
    rcases hd with ⟨rfl, rfl, rfl⟩ | ⟨r, _, _, rfl, hr⟩
    · refine ⟨?_, ?_, ?_, h.nodup⟩
      · intro x
        have := h.reg x
        simp only [List.countP_append]
        simpa [regAnswer] using this
      · intro x
        have := hun x
        simp only [List.countP_cons, isUnregPost] at this
        simp only [List.countP_append, List.countP_cons, List.countP_nil, unregCall, unregAnswer]
        rw [this]
        simp
        omega
      · intro r hr
        simp [h.ok r hr]
    · have hδ : ∀ o ∈ δ, regFree o = true := by
        rcases hr with ⟨_, rfl, _⟩ | ⟨_, rfl, _⟩ <;> simp [regFree]
      have c := regFree_counts hδ
      refine ⟨?_, ?_, ?_, h.nodup⟩
      · intro x
        have := h.reg x
        simp only [List.countP_append, (c x).1]
        simpa [isRegister] using this
      · intro x
        have := hun x
        simp only [List.countP_cons, isUnregPost] at this
        simp only [List.countP_append, (c x).2.1, (c x).2.2, List.countP_cons, List.countP_nil, isUnregister]
        by_cases hx : id = x <;> simp [hx] at this ⊢ <;> omega
      · intro r hr
        simp [h.ok r hr]
  | shutdown => exact invR_free h [.cleared] rfl (by simp [regFree]) rfl rfl (hps (fun _ => rfl)) (by simp [handle, doShutdown])

theorem invR_reply {s : St I D} (h : InvR s) (k : Nat) (ok : Bool) : InvR (doReply s k ok) := by
  simp only [doReply]
  split
  · exact h
  · rename_i id pfx filter hk
    have e1 := fun x => eraseIdx_countP (isRegister x) s.cmds k _ hk
    have e2 := fun x => eraseIdx_countP (isUnregister x) s.cmds k _ hk
    have hnew : id ∉ s.regs.map Reg.id := by
      intro hh
      obtain ⟨r, hr, hi⟩ := List.mem_map.1 hh
      have := h.ok r hr
      have h1 : 0 < s.log.countP (regAnswer id) := by
        rw [List.countP_pos_iff]
        exact ⟨_, this, by simp [regAnswer, hi]⟩
      have h2 := h.reg id
      have h3 := e1 id
      simp [isRegister] at h3
      split at h2 <;> omega
    have key : ∀ (δ : List (Obs I D)) (rs : List Reg), (∀ x, δ.countP (regAnswer x) = if id = x then 1 else 0) →
        (∀ x, δ.countP (unregAnswer x) = 0) → (∀ x, δ.countP (unregCall x) = 0) →
        (∀ r ∈ rs, r ∈ s.regs ∨ Obs.regOk r.id ∈ δ) → (rs.map Reg.id).Nodup →
        ∀ s' : St I D, s'.log = s.log ++ δ → s'.regs = rs → s'.cmds = s.cmds.eraseIdx k → s'.lastReg = s.lastReg →
        s'.queue = s.queue → InvR s' := by
      intro δ rs h1 h2 h3 h4 h5 s' a b c d e
      refine ⟨?_, ?_, ?_, by rw [b]; exact h5⟩
      · intro x
        have := h.reg x
        have e1 := e1 x
        simp only [isRegister, beq_iff_eq] at e1
        rw [a, c, d, List.countP_append, h1]
        omega
      · intro x
        have := h.unreg x
        have e2 := e2 x
        simp only [isUnregister, Bool.false_eq_true, if_false, Nat.add_zero] at e2
        rw [a, c, e, List.countP_append, List.countP_append, h2, h3]
        omega
      · intro r hr
        rw [b] at hr
        rw [a, List.mem_append]
        rcases h4 r hr with h' | h'
        · exact Or.inl (h.ok r h')
        · exact Or.inr h'
    have hnd : ∀ q : Reg, q.id = id → ((s.regs ++ [q]).map Reg.id).Nodup := by
      intro q hq
      rw [List.map_append, List.nodup_append]
      refine ⟨h.nodup, by simp, ?_⟩
      intro a ha b hb hab
      simp at hb
      rw [hab, hb, hq] at ha
      exact hnew ha
    split
    · split
      · refine key [.regOk id] (s.regs ++ [⟨id, pfx, 0⟩]) (by intro x; simp [regAnswer, List.countP_cons]) (by simp [unregAnswer]) (by simp [unregCall]) ?_ (hnd _ rfl) _ rfl rfl rfl rfl rfl
        intro r hr
        rcases List.mem_append.1 hr with hr | hr
        · exact Or.inl hr
        · simp at hr; subst hr; simp
      · rename_i f
        have c := regFree_counts (regFree_dup (I := I) (D := D) (putFilter (s.lastFilter + 1) f s.filters).2)
        refine key (.filterSet (s.lastFilter + 1) f :: dupObs (putFilter (s.lastFilter + 1) f s.filters).2 ++ [.regOk id])
          (s.regs ++ [⟨id, pfx, s.lastFilter + 1⟩]) ?_ ?_ ?_ ?_ (hnd _ rfl) _ (by simp) rfl rfl rfl rfl
        · intro x
          rw [List.countP_append, List.countP_cons, (c x).1]
          simp [regAnswer, List.countP_cons]
        · intro x
          rw [List.countP_append, List.countP_cons, (c x).2.1]
          simp [unregAnswer]
        · intro x
          rw [List.countP_append, List.countP_cons, (c x).2.2]
          simp [unregCall]
        · intro r hr
          rcases List.mem_append.1 hr with hr | hr
          · exact Or.inl hr
          · simp at hr; subst hr; simp
    · exact key [.regFail id] s.regs (by intro x; simp [regAnswer, List.countP_cons]) (by simp [unregAnswer]) (by simp [unregCall]) (fun r hr => Or.inl hr) h.nodup _ rfl rfl rfl rfl rfl
  · rename_i id hk
    have e1 := fun x => eraseIdx_countP (isRegister x) s.cmds k _ hk
    have e2 := fun x => eraseIdx_countP (isUnregister x) s.cmds k _ hk
    have key : ∀ (o : Obs I D) (rs : List Reg), (o = .unregOk id ∨ o = .unregFail id) → rs.Sublist s.regs →
        ∀ s' : St I D, s'.log = s.log ++ [o] → s'.regs = rs → s'.cmds = s.cmds.eraseIdx k → s'.lastReg = s.lastReg →
        s'.queue = s.queue → InvR s' := by
      intro o rs ho h4 s' a b c d e
      refine ⟨?_, ?_, ?_, by rw [b]; exact (h4.map _).nodup h.nodup⟩
      · intro x
        have := h.reg x
        have e1 := e1 x
        simp only [isRegister, Bool.false_eq_true, if_false, Nat.add_zero] at e1
        rw [a, c, d, List.countP_append]
        have : [o].countP (regAnswer x) = 0 := by rcases ho with rfl | rfl <;> simp [regAnswer]
        omega
      · intro x
        have := h.unreg x
        have e2 := e2 x
        simp only [isUnregister, beq_iff_eq] at e2
        have e3 : [o].countP (unregAnswer x) = if id = x then 1 else 0 := by
          rcases ho with rfl | rfl <;> simp [unregAnswer, List.countP_cons]
        have e4 : [o].countP (unregCall x) = 0 := by rcases ho with rfl | rfl <;> simp [unregCall]
        rw [a, c, e, List.countP_append, List.countP_append, e3, e4]
        omega
      · intro r hr
        rw [b] at hr
        rw [a, List.mem_append]
        exact Or.inl (h.ok r (h4.mem hr))
    split
    · exact key (.unregOk id) _ (Or.inl rfl) List.filter_sublist _ rfl rfl rfl rfl rfl
    · exact key (.unregFail id) _ (Or.inr rfl) (List.Sublist.refl _) _ rfl rfl rfl rfl rfl

theorem invR_step {s : St I D} (h : InvR s) (op : Op I D) : InvR (step E s op) := by
  have hpost : ∀ (p : Post I D), (∀ id, isUnregPost id p = false) → ∀ id,
      (s.queue ++ [p]).countP (isUnregPost id) = s.queue.countP (isUnregPost id) := by
    intro p hp id; rw [List.countP_append, List.countP_cons, hp id]; simp
  cases op with
  | express i => exact invR_free h _ rfl (by simp [regFree]) rfl rfl (hpost _ (fun _ => rfl)) (List.Sublist.refl _)
  | cancel id =>
    simp only [step]; split
    · exact invR_free h _ rfl (by simp [regFree]) rfl rfl (hpost _ (fun _ => rfl)) (List.Sublist.refl _)
    · exact h
  | removeAll => exact invR_free h [] (by simp [step]) (by simp) rfl rfl (hpost _ (fun _ => rfl)) (List.Sublist.refl _)
  | putData d => exact invR_free h [] (by simp [step]) (by simp) rfl rfl (hpost _ (fun _ => rfl)) (List.Sublist.refl _)
  | putNack n => exact invR_free h [] (by simp [step]) (by simp) rfl rfl (hpost _ (fun _ => rfl)) (List.Sublist.refl _)
  | setFilter f => exact invR_free h [] (by simp [step]) (by simp) rfl rfl (hpost _ (fun _ => rfl)) (List.Sublist.refl _)
  | unsetFilter fid =>
    simp only [step]; split
    · exact invR_free h _ rfl (by simp [regFree]) rfl rfl (hpost _ (fun _ => rfl)) (List.Sublist.refl _)
    · exact h
  | register pfx f =>
    have c := regFree_counts (δ := [(.callRegister (s.lastReg + 1) : Obs I D)]) (by simp [regFree])
    refine ⟨?_, ?_, ?_, h.nodup⟩
    · intro x
      have := h.reg x
      show (s.cmds ++ [Cmd.register (s.lastReg + 1) pfx f]).countP (isRegister x) +
        (s.log ++ [Obs.callRegister (s.lastReg + 1)]).countP (regAnswer x) = if 0 < x ∧ x ≤ s.lastReg + 1 then 1 else 0
      simp only [List.countP_append, (c x).1, List.countP_cons, List.countP_nil, isRegister, beq_iff_eq]
      by_cases hx : s.lastReg + 1 = x
      · rw [if_neg (by omega)] at this
        rw [if_pos hx, if_pos (by omega)]
        omega
      · rw [if_neg hx]
        by_cases hy : 0 < x ∧ x ≤ s.lastReg
        · rw [if_pos hy] at this
          rw [if_pos (by omega)]
          omega
        · rw [if_neg hy] at this
          rw [if_neg (by omega)]
          omega
    · intro x
      have := h.unreg x
      simp only [step, List.countP_append, (c x).2.1, (c x).2.2]
      simpa [isUnregister] using this
    · intro r hr
      simp only [step]
      exact List.mem_append_left _ (h.ok r hr)
  | unregister id =>
    simp only [step]; split
    · refine ⟨?_, ?_, ?_, h.nodup⟩
      · intro x
        have := h.reg x
        simp only [List.countP_append]
        simpa [regAnswer] using this
      · intro x
        have := h.unreg x
        simp only [List.countP_append, List.countP_cons, List.countP_nil, isUnregPost, unregCall, unregAnswer]
        simp
        omega
      · intro r hr
        exact List.mem_append_left _ (h.ok r hr)
    · exact h
  | shutdown => exact invR_free h [] (by simp [step]) (by simp) rfl rfl (hpost _ (fun _ => rfl)) (List.Sublist.refl _)
  | run boom =>
    simp only [step]
    split
    · exact h
    · rename_i p ps hq
      exact invR_handle h boom p ps hq
  | fire id boom =>
    have hl : ∃ δ, (doFire boom s id).log = s.log ++ δ ∧ (∀ o ∈ δ, regFree o = true) ∧ (doFire boom s id).cmds = s.cmds ∧
        (doFire boom s id).lastReg = s.lastReg ∧ (doFire boom s id).queue = s.queue ∧ (doFire boom s id).regs = s.regs := by
      simp only [doFire]
      split
      · exact ⟨[], by simp, by simp, rfl, rfl, rfl, rfl⟩
      · split
        · split <;> exact ⟨_, rfl, by simp [regFree], rfl, rfl, rfl, rfl⟩
        · exact ⟨[], by simp, by simp, rfl, rfl, rfl, rfl⟩
    obtain ⟨δ, a, b, c, d, e, f⟩ := hl
    exact invR_free h δ a b c d (fun id => by simp only [step]; rw [e]) (by simp only [step]; rw [f]; exact List.Sublist.refl _)
  | recvInterest i boom =>
    obtain ⟨e, δ, hs, hc, _, _, _, hd⟩ := doArrive_shape (E := E) boom s i
    simp only [step]
    rw [hs]
    refine invR_free h _ rfl ?_ rfl rfl (fun _ => rfl) (List.Sublist.refl _)
    intro o ho
    rcases List.mem_cons.1 ho with rfl | ho
    · rfl
    · rw [hd] at ho
      rcases List.mem_append.1 ho with ho | ho
      · exact regFree_dup _ _ ho
      · exact regFree_dispatch _ _ _ _ ho
  | recvData d boom =>
    refine invR_free h (.gotData d :: (satisfy E d boom s.pit).log) rfl ?_ rfl rfl (fun _ => rfl) (List.Sublist.refl _)
    intro o ho
    rcases List.mem_cons.1 ho with rfl | ho
    · rfl
    · exact inert_regFree_satisfy _ _ _ _ ho
  | recvNack n boom =>
    refine invR_free h (.gotNack n :: (nackLoop (D := D) E n boom s.pit).log) rfl ?_ rfl rfl (fun _ => rfl) (List.Sublist.refl _)
    intro o ho
    rcases List.mem_cons.1 ho with rfl | ho
    · rfl
    · exact regFree_nackLoop _ _ _ _ ho
  | reply k ok => exact invR_reply h k ok
  | advance dt => exact invR_free h [] (by simp [step]) (by simp) rfl rfl (fun _ => rfl) (List.Sublist.refl _)
  | unwind => exact invR_free h [.cleared] rfl (by simp [regFree]) rfl rfl (fun _ => rfl) (by simp [step, doShutdown])

theorem invR_run {s : St I D} (h : InvR s) (ops : List (Op I D)) : InvR (run E s ops) := by
  induction ops generalizing s with
  | nil => exact h
  | cons op ops ih => exact ih (invR_step h op)

/-- The record of an expressed Interest is determined by its identifier. -/
theorem expressed_entry {s : St I D} (hA : InvA E s) {e : Entry I} (he : e ∈ s.pit) {id : Nat} (hid : e.id = id) {i : I} {t : Nat}
    (hi : Obs.expressed id i t ∈ s.log) : e.interest = i ∧ e.app = true ∧ e.expiry = t + E.lifetime i := by
  obtain ⟨t', _, hcr, hx⟩ := hA.cre e he
  have hnd : (creIds s.log).Nodup := (List.nodup_append.1 hA.nodup).1
  have key : ∀ (l : List (Obs I D)), (creIds l).Nodup → ∀ a ∈ l, ∀ b ∈ l, creates id a = true → creates id b = true → a = b := by
    intro l
    induction l with
    | nil => simp
    | cons o l ih =>
      intro hn a ha b hb hca hcb
      have hsplit : creIds (o :: l) = creIds [o] ++ creIds l := creIds_append [o] l
      rw [hsplit, List.nodup_append] at hn
      have ho : ∀ x, creates id x = true → x = o → id ∈ creIds [o] := by
        intro x hx hxo; rw [mem_creIds_iff]; exact ⟨o, by simp, hxo ▸ hx⟩
      have hl : ∀ x ∈ l, creates id x = true → id ∈ creIds l := by
        intro x hx hc; rw [mem_creIds_iff]; exact ⟨x, hx, hc⟩
      rcases List.mem_cons.1 ha with ha | ha <;> rcases List.mem_cons.1 hb with hb | hb
      · rw [ha, hb]
      · exact absurd rfl (hn.2.2 id (ho a hca ha) id (hl b hb hcb))
      · exact absurd rfl (hn.2.2 id (ho b hcb hb) id (hl a ha hca))
      · exact ih hn.2.1 a ha b hb hca hcb
  have : (creation e t' : Obs I D) = Obs.expressed id i t := by
    apply key s.log hnd _ hcr _ hi
    · unfold creation; split <;> simp [creates, hid]
    · simp [creates]
  unfold creation at this
  split at this
  · rename_i ha
    simp at this
    exact ⟨this.2.1, ha, by rw [hx, this.2.1, this.2.2]⟩
  · cases this

theorem recordNack_some (e : Entry I) (n : Nack I) : (recordNack e n).2.1.isSome = decide (e.nNotNacked ≤ 1) := by
  have hl : ∀ (k : Int) (o : Option (Nack I)), o.isSome = true → (if k - 1 > 0 then none else o).isSome = decide (k ≤ 1) := by
    intro k o ho
    by_cases h : k - 1 > 0
    · rw [if_pos h]; simp; omega
    · rw [if_neg h, ho]; simp; omega
  unfold recordNack
  simp only
  cases hm : e.least with
  | none => exact hl _ _ rfl
  | some m =>
    simp only
    split
    · exact hl _ _ rfl
    · exact hl _ _ (by simp)

theorem nackLoop_out_iff (n : Nack I) {boom : Nat → Bool} (hb : ∀ x, boom x = false) (es : List (Entry I)) :
    (nackLoop (D := D) E n boom es).outNack.isSome = true ↔
    ∃ e ∈ es, E.matchesInterest n.interest e.interest = true ∧ e.app = false ∧ e.nNotNacked ≤ 1 := by
  induction es with
  | nil => simp [nackLoop]
  | cons e es ih =>
    have hs := recordNack_some e n
    simp only [nackLoop]
    by_cases hm : E.matchesInterest n.interest e.interest = true
    · rw [if_neg (by simp [hm])]
      cases hr : (recordNack e n).2.1 with
      | none =>
        rw [hr] at hs
        have : ¬ e.nNotNacked ≤ 1 := by simpa using hs.symm
        simp only [ih, List.mem_cons, exists_eq_or_imp, hm, this, and_false, false_or]
      | some m =>
        rw [hr] at hs
        have h1 : e.nNotNacked ≤ 1 := by simpa using hs.symm
        by_cases ha : e.app = true
        · simp only [ha, hb, if_true, Bool.false_eq_true, if_false, ih, List.mem_cons, exists_eq_or_imp]
          simp
        · have ha' : e.app = false := by simpa using ha
          simp only [ha', Bool.false_eq_true, if_false, List.mem_cons, exists_eq_or_imp, hm, h1, true_and, true_or, iff_true]
          cases (nackLoop (D := D) E n boom es).outNack <;> rfl
    · rw [if_pos (by simp [hm])]
      simp only [ih, List.mem_cons, exists_eq_or_imp, hm, false_and, false_or, Bool.false_eq_true]

end Ndn.Face
