import Verif.Transport.RecvLemmas

namespace Ndn.Transport
open Block Block.Spec Spec

/-! ### The send side: what went into the socket -/

/-- `done`: packets completely handed to the socket and taken off the queue; `p`: what the socket
accepted of the packet at the front of the queue. `S`: packets passed to `send`, `W`: octets the
socket accepted. -/
structure SInv (s : St) (S : List Bytes) (W : Bytes) (done : List Bytes) (p : Bytes) : Prop where
  sent : S = done ++ s.queue
  wire : W = done.flatten ++ p
  front : p <+: s.queue.flatten
  write : ∀ w, s.write = some w → ∃ b q, s.queue = b :: q ∧ b = p ++ w.left ∧
    (w.res = .ok → w.left = [])
  conn : s.state = .connecting ∨ s.connect ≠ none ∨ s.resolve ≠ none →
    s.state = .connecting ∧ s.write = none ∧ done = [] ∧ p = []
  one : s.connect ≠ none → s.resolve = none
  open' : s.state ≠ .closed

/-- After the end (closed, or undefined behaviour): nothing more goes out. -/
structure SDone (s : St) (S : List Bytes) (W : Bytes) : Prop where
  wire : W <+: S.flatten
  queue : s.queue = []
  write : ∀ w, s.write = some w → w.res ≠ .pending
  impl : s.impl = false

def SendOk (s : St) (S : List Bytes) (W : Bytes) : Prop :=
  if s.dead then W <+: S.flatten
  else if s.impl then ∃ done p, SInv s S W done p
  else SDone s S W

theorem SInv.prefix {s : St} {S done : List Bytes} {W p : Bytes} (h : SInv s S W done p) : W <+: S.flatten := by
  rw [h.wire, h.sent]
  obtain ⟨t, ht⟩ := h.front
  exact ⟨t, by rw [List.append_assoc, ht]; simp⟩

theorem SendOk.prefix {s : St} {S : List Bytes} {W : Bytes} (h : SendOk s S W) : W <+: S.flatten := by
  unfold SendOk at h
  split at h
  · exact h
  · split at h
    · obtain ⟨_, _, h⟩ := h; exact h.prefix
    · exact h.wire

theorem sendOk_init (tcp : Bool) : SendOk (init tcp) [] [] := by
  simp only [SendOk, init]
  refine ⟨[], [], { sent := rfl, wire := rfl, front := List.nil_prefix, write := ?_, conn := ?_, one := ?_,
                    open' := by simp }⟩
  · intro w hw; cases hw
  · intro _; exact ⟨rfl, rfl, rfl, rfl⟩
  · cases tcp <;> simp

/-- What a step does to the send side. -/
def Good (x : St × List Out) (S : List Bytes) (W : Bytes) : Prop :=
  SendOk x.1 S (W ++ wires x.2)

theorem good_dead {s : St} {S : List Bytes} {W : Bytes} (h : W <+: S.flatten) {o : List Out} (ho : wires o = []) :
    Good ({ s with dead := true }, o) S W := by
  unfold Good SendOk
  rw [ho]; simpa using h

theorem good_close {s : St} {S : List Bytes} {W : Bytes} (hp : W <+: S.flatten) (hd : s.dead = false) : Good (close s) S W := by
  unfold close
  by_cases hi : s.impl = true
  · rw [if_pos hi]
    unfold Good SendOk
    simp only [closeImpl, cancelSocket, hd, wires]
    refine { wire := by simpa using hp, queue := rfl, write := ?_, impl := rfl }
    intro w hw
    simp only [Option.map_eq_some_iff] at hw
    obtain ⟨w', -, rfl⟩ := hw
    exact cancel_pending _
  · rw [if_neg hi]
    exact good_dead hp rfl

theorem good_closeThrow {s : St} {S : List Bytes} {W : Bytes} (hp : W <+: S.flatten) (hd : s.dead = false) :
    Good (closeThrow s) S W := by
  have := good_close hp hd
  unfold closeThrow
  split
  · unfold Good at this ⊢
    rw [(close_outs s).2.2] at this
    simpa [wires] using this
  · exact this

theorem good_same {s : St} {S : List Bytes} {W : Bytes} (h : SendOk s S W) {o : List Out} (ho : wires o = []) :
    Good (s, o) S W := by
  unfold Good; rw [ho]; simpa using h

/-- Changing only the receive side, the timer and the like. -/
theorem SendOk.congr {s s' : St} {S : List Bytes} {W : Bytes} (h : SendOk s S W) (h1 : s'.state = s.state)
    (h2 : s'.impl = s.impl) (h3 : s'.resolve = s.resolve) (h4 : s'.connect = s.connect)
    (h5 : s'.queue = s.queue) (h6 : s'.write = s.write) (h7 : s'.dead = s.dead) :
    SendOk s' S W := by
  unfold SendOk at h ⊢
  rw [h7, h2]
  split at h
  · rename_i hd; rw [if_pos hd]; exact h
  · rename_i hd; rw [if_neg hd]
    split at h
    · rename_i hi; rw [if_pos hi]
      obtain ⟨d, p, h⟩ := h
      refine ⟨d, p, ⟨?_, h.wire, ?_, ?_, ?_, ?_, ?_⟩⟩
      · rw [h5]; exact h.sent
      · rw [h5]; exact h.front
      · rw [h6, h5]; exact h.write
      · rw [h1, h3, h4, h6]; exact h.conn
      · rw [h3, h4]; exact h.one
      · rw [h1]; exact h.open'
    · rename_i hi; rw [if_neg hi]
      refine ⟨h.wire, ?_, ?_, ?_⟩
      · rw [h5]; exact h.queue
      · rw [h6]; exact h.write
      · rw [h2]; exact h.impl

theorem sendOk_live {s : St} {S : List Bytes} {W : Bytes} (hd : s.dead = false) (hi : s.impl = true) :
    SendOk s S W ↔ ∃ done p, SInv s S W done p := by
  simp [SendOk, hd, hi]

theorem sendOk_done {s : St} {S : List Bytes} {W : Bytes} (hd : s.dead = false) (hi : s.impl = false) :
    SendOk s S W ↔ SDone s S W := by
  simp [SendOk, hd, hi]

theorem flatten_done {q : List Bytes} {p : Bytes} (h : p <+: q.flatten) (hq : q = []) : p = [] := by
  subst hq; simpa using h

/-- Starting to write the only packet in the queue. -/
theorem good_start {s : St} {S done : List Bytes} {W : Bytes} (hd : s.dead = false) (hi : s.impl = true)
    (hsent : S = done ++ s.queue) (hw : W = done.flatten)
    (hst : s.state ≠ .connecting) (hst' : s.state ≠ .closed) (hc : s.connect = none)
    (hr : s.resolve = none) (hq : s.queue ≠ []) : Good (asyncWrite s) S W := by
  unfold asyncWrite
  cases hqq : s.queue with
  | nil => exact absurd hqq hq
  | cons b q =>
    simp only
    refine good_same ?_ rfl
    rw [sendOk_live (by exact hd) (by exact hi)]
    refine ⟨done, [], { sent := hqq ▸ hsent, wire := by simpa using hw, front := List.nil_prefix,
                        write := ?_, conn := ?_, one := ?_, open' := hst' }⟩
    · intro w hw'
      simp only [Option.some.injEq] at hw'
      subst hw'
      refine ⟨b, q, hqq ▸ rfl, by simp, ?_⟩
      intro he; simp only at he; split at he <;> cases he
    · rintro (e | e | e)
      · exact absurd e hst
      · exact absurd hc e
      · exact absurd hr e
    · intro e; exact absurd hc e

theorem good_send {s : St} {S : List Bytes} {W : Bytes} (b : Bytes) (h : SendOk s S W) (hd : s.dead = false) :
    Good (send s b) (S ++ [b]) W := by
  unfold send
  have hpre : W <+: (S ++ [b]).flatten := by
    obtain ⟨t, ht⟩ := h.prefix
    exact ⟨t ++ b, by rw [← List.append_assoc, ht]; simp⟩
  by_cases hi : s.impl = true
  · rw [if_pos hi]
    obtain ⟨done, p, h⟩ := (sendOk_live hd hi).1 h
    split
    · rename_i hc
      obtain ⟨c1, c2, c3⟩ := hc
      have hq : s.queue = [] := by
        simp at c3; exact c3
      have hp : p = [] := flatten_done h.front hq
      have hcn : ¬ (s.connect ≠ none ∨ s.resolve ≠ none) := by
        intro e; exact c2 (h.conn (.inr e)).1
      refine good_start hd hi (done := done) ?_ ?_ c2 c1 ?_ ?_ ?_
      · show S ++ [b] = done ++ (s.queue ++ [b])
        rw [h.sent]; simp
      · rw [h.wire, hp]; simp
      · exact Classical.byContradiction fun e => hcn (.inl e)
      · exact Classical.byContradiction fun e => hcn (.inr e)
      · simp
    · refine good_same ?_ rfl
      rw [sendOk_live (by exact hd) (by exact hi)]
      refine ⟨done, p, { sent := ?_, wire := h.wire, front := ?_, write := ?_, conn := h.conn,
                         one := h.one, open' := h.open' }⟩
      · show S ++ [b] = done ++ (s.queue ++ [b])
        rw [h.sent]; simp
      · obtain ⟨t, ht⟩ := h.front
        exact ⟨t ++ b, by rw [← List.append_assoc, ht]; simp⟩
      · intro w hw
        obtain ⟨b', q, h1, h2, h3⟩ := h.write w hw
        exact ⟨b', q ++ [b], by show s.queue ++ [b] = _; rw [h1]; rfl, h2, h3⟩
  · rw [if_neg hi]; exact good_dead hpre rfl

theorem good_pause {s : St} {S : List Bytes} {W : Bytes} (h : SendOk s S W) (hd : s.dead = false) : Good (pause s, []) S W := by
  refine good_same ?_ rfl
  unfold pause
  split
  · rename_i hi
    split
    · rename_i hs
      obtain ⟨done, p, h⟩ := (sendOk_live hd hi).1 h
      rw [sendOk_live (by exact hd) (by exact hi)]
      have hcn : ¬ (s.connect ≠ none ∨ s.resolve ≠ none) := by
        intro e
        have := (h.conn (.inr e)).1
        rw [hs] at this; cases this
      have c1 : s.connect = none := Classical.byContradiction fun e => hcn (.inl e)
      have c2 : s.resolve = none := Classical.byContradiction fun e => hcn (.inr e)
      refine ⟨done, p, { sent := h.sent, wire := h.wire, front := h.front, write := ?_, conn := ?_,
                         one := ?_, open' := by simp }⟩
      · intro w hw
        simp only [cancelSocket, Option.map_eq_some_iff] at hw
        obtain ⟨w', hw', rfl⟩ := hw
        obtain ⟨b, q, h1, h2, h3⟩ := h.write w' hw'
        exact ⟨b, q, h1, h2, fun e => h3 (cancel_ok.1 e)⟩
      · rintro (e | e | e)
        · cases e
        · simp [cancelSocket, c1] at e
        · exact absurd c2 e
      · intro e; simp [cancelSocket, c1] at e
    · exact h
  · exact h

theorem sendOk_state {s : St} {S : List Bytes} {W : Bytes} {st : TState} (h : SendOk s S W) (hd : s.dead = false)
    (h1 : s.state ≠ .connecting) (h2 : st ≠ .connecting) (h3 : st ≠ .closed) :
    SendOk { s with state := st } S W := by
  rcases Bool.eq_false_or_eq_true s.impl with hi | hi
  · obtain ⟨done, p, h⟩ := (sendOk_live hd hi).1 h
    rw [sendOk_live (by exact hd) (by exact hi)]
    refine ⟨done, p, { h with conn := ?_, open' := h3 }⟩
    rintro (e | e)
    · exact absurd e h2
    · exact absurd (h.conn (.inr e)).1 h1
  · have h := (sendOk_done hd hi).1 h
    rw [sendOk_done (by exact hd) (by exact hi)]
    exact { h with }

theorem good_resume {s : St} {S : List Bytes} {W : Bytes} (h : SendOk s S W) (hd : s.dead = false) : Good (resume s) S W := by
  unfold resume
  split
  · refine good_same ?_ rfl
    unfold resumeImpl
    split
    · rename_i hs
      exact (sendOk_state (st := .running) h hd (by rw [hs]; simp) (by simp) (by simp)).congr
        rfl rfl rfl rfl rfl rfl rfl
    · exact h
  · exact good_dead h.prefix rfl

theorem good_connect {s : St} {S : List Bytes} {W : Bytes} (r : Res) (h : SendOk s S W) (hd : s.dead = false)
    (hc : s.connect ≠ none) : Good (connectHandler { s with connect := none } r) S W := by
  have hpre := h.prefix
  have hbase : s.impl = true → r ≠ .aborted → r ≠ .pending →
      SendOk { s with connect := none, timer := s.timer.map Res.cancel, state := .paused } S W := by
    intro hi _ _
    obtain ⟨done, p, h⟩ := (sendOk_live hd hi).1 h
    rw [sendOk_live (by exact hd) (by exact hi)]
    have hz := h.one hc
    refine ⟨done, p, { sent := h.sent, wire := h.wire, front := h.front, write := h.write, conn := ?_,
                       one := fun e => absurd rfl e, open' := by simp }⟩
    rintro (e | e | e)
    · cases e
    · exact absurd rfl e
    · exact absurd hz e
  have hidle : SendOk { s with connect := none, timer := s.timer.map Res.cancel } S W := by
    rcases Bool.eq_false_or_eq_true s.impl with hi | hi
    · obtain ⟨done, p, h⟩ := (sendOk_live hd hi).1 h
      rw [sendOk_live (by exact hd) (by exact hi)]
      have hcc := h.conn (.inr (.inl hc))
      exact ⟨done, p, { h with conn := fun _ => hcc, one := fun e => absurd rfl e }⟩
    · have h := (sendOk_done hd hi).1 h
      rw [sendOk_done (by exact hd) (by exact hi)]
      exact { h with }
  cases r with
  | pending => exact good_same hidle rfl
  | aborted => exact good_same hidle rfl
  | failed => exact good_closeThrow hpre hd
  | ok =>
    simp only [connectHandler]
    rcases (Bool.eq_false_or_eq_true s.impl).symm with hi | hi
    · have h := (sendOk_done hd hi).1 h
      rw [if_pos (by simp [h.queue])]
      refine good_same ?_ rfl
      rw [sendOk_done (by exact hd) (by exact hi)]
      exact { wire := h.wire, queue := h.queue, write := h.write, impl := hi }
    · have h2 := hbase hi (by simp) (by simp)
      obtain ⟨done, p, h⟩ := (sendOk_live hd hi).1 h
      obtain ⟨-, c2, c3, c4⟩ := h.conn (.inr (.inl hc))
      have hz := h.one hc
      split
      · exact good_same h2 rfl
      · rename_i hq
        unfold resumeImpl
        rw [if_pos rfl]
        refine good_start (done := done) hd ?_ h.sent ?_ ?_ ?_ rfl hz ?_
        · exact hi
        · rw [h.wire, c4]; simp
        · simp [asyncReceive]
        · simp [asyncReceive]
        · intro e; exact hq (by simpa [asyncReceive] using e)

theorem good_write {s : St} {S : List Bytes} {W : Bytes} {w : WriteOp} (h : SendOk s S W) (hd : s.dead = false)
    (hw : s.write = some w) (hk : w.res ≠ .pending) :
    Good (writeHandler { s with write := none } w.res) S W := by
  have hpre := h.prefix
  have hidle : SendOk { s with write := none } S W := by
    rcases Bool.eq_false_or_eq_true s.impl with hi | hi
    · obtain ⟨done, p, h⟩ := (sendOk_live hd hi).1 h
      rw [sendOk_live (by exact hd) (by exact hi)]
      refine ⟨done, p, { h with write := (fun w e => by cases e), conn := ?_ }⟩
      intro e
      obtain ⟨a, -, b, c⟩ := h.conn e
      exact ⟨a, rfl, b, c⟩
    · have h := (sendOk_done hd hi).1 h
      rw [sendOk_done (by exact hd) (by exact hi)]
      exact { h with write := (fun w e => by cases e) }
  cases hr : w.res with
  | pending => exact absurd hr hk
  | aborted => exact good_same hidle rfl
  | failed => exact good_closeThrow hpre hd
  | ok =>
    simp only [writeHandler]
    split
    · exact good_same hidle rfl
    · rename_i hs
      rcases (Bool.eq_false_or_eq_true s.impl).symm with hi | hi
      · have h := (sendOk_done hd hi).1 h
        simp only [h.queue]
        exact good_dead (s := { s with write := none, queue := [] }) hpre rfl
      · obtain ⟨done, p, h⟩ := (sendOk_live hd hi).1 h
        obtain ⟨b, q, h1, h2, h3⟩ := h.write w hw
        have hb : b = p := by rw [h2, h3 hr]; simp
        have hnc : ¬ (s.state = .connecting ∨ s.connect ≠ none ∨ s.resolve ≠ none) := by
          intro e
          have := (h.conn e).2.1
          rw [hw] at this; cases this
        have n1 : s.state ≠ .connecting := fun e => hnc (.inl e)
        have n2 : s.connect = none := Classical.byContradiction fun e => hnc (.inr (.inl e))
        have n3 : s.resolve = none := Classical.byContradiction fun e => hnc (.inr (.inr e))
        have hsent : S = (done ++ [b]) ++ q := by rw [h.sent, h1]; simp
        have hwire : W = (done ++ [b]).flatten := by rw [h.wire, hb]; simp
        simp only [h1]
        split
        · refine good_same ?_ rfl
          rw [sendOk_live (by exact hd) (by exact hi)]
          refine ⟨done ++ [b], [], { sent := hsent, wire := by simpa using hwire,
                                     front := List.nil_prefix, write := (fun w e => by cases e), conn := ?_,
                                     one := fun e => absurd n2 e, open' := h.open' }⟩
          intro e; exact absurd e hnc
        · rename_i hq
          exact good_start (done := done ++ [b]) (by exact hd) (by exact hi) hsent hwire n1 h.open' n2 n3
            (by simpa using hq)

theorem good_written {s : St} {S : List Bytes} {W : Bytes} {w : WriteOp} {n : Nat} (h : SendOk s S W) (hd : s.dead = false)
    (hw : s.write = some w) (hk : w.res = .pending ∧ n ≤ w.left.length) :
    Good ({ s with write := some ⟨w.left.drop n,
        if w.left.drop n = [] then .ok else .pending⟩ }, [.wire (w.left.take n)]) S W := by
  unfold Good
  simp only [wires, List.map_cons, List.map_nil, List.flatten_cons, List.flatten_nil,
    List.append_nil]
  rcases (Bool.eq_false_or_eq_true s.impl).symm with hi | hi
  · have h := (sendOk_done hd hi).1 h
    exact absurd hk.1 (h.write w hw)
  · obtain ⟨done, p, h⟩ := (sendOk_live hd hi).1 h
    obtain ⟨b, q, h1, h2, h3⟩ := h.write w hw
    have hnc : ¬ (s.state = .connecting ∨ s.connect ≠ none ∨ s.resolve ≠ none) := by
      intro e
      have := (h.conn e).2.1
      rw [hw] at this; cases this
    rw [sendOk_live (by exact hd) (by exact hi)]
    refine ⟨done, p ++ w.left.take n, { sent := h.sent, wire := ?_, front := ?_, write := ?_,
                                        conn := fun e => absurd e hnc, one := h.one, open' := h.open' }⟩
    · rw [h.wire]; simp
    · refine ⟨w.left.drop n ++ q.flatten, ?_⟩
      show _ = s.queue.flatten
      rw [h1, List.flatten_cons, h2]
      simp only [List.append_assoc]
      rw [← List.append_assoc (List.take n w.left), List.take_append_drop]
    · intro w' hw'
      simp only [Option.some.injEq] at hw'
      subst hw'
      refine ⟨b, q, h1, ?_, ?_⟩
      · rw [h2]; simp
      · intro e
        simp only at e ⊢
        split at e
        · assumption
        · cases e

theorem wires_recv (s : St) (r : Res) (n : Nat) : wires (recvHandler s r n).2 = [] := by
  cases r with
  | pending => rfl
  | aborted => rfl
  | failed => exact (closeThrow_outs s).2.2
  | ok =>
    simp only [recvHandler]
    (repeat' split) <;> simp [wires_map, wires_append, (closeThrow_outs _).2.2] <;> rfl

theorem good_recv {s : St} {S : List Bytes} {W : Bytes} (h : SendOk s S W) (hd : s.dead = false) (r : Res) (n : Nat) :
    Good (recvHandler s r n) S W := by
  have hpre := h.prefix
  have plain : ∀ (s' : St) (o : List Out), wires o = [] → s'.state = s.state → s'.impl = s.impl →
      s'.resolve = s.resolve → s'.connect = s.connect → s'.queue = s.queue →
      s'.write = s.write → s'.dead = s.dead → Good (s', o) S W :=
    fun s' o ho h1 h2 h3 h4 h5 h6 h7 => good_same (h.congr h1 h2 h3 h4 h5 h6 h7) ho
  cases r with
  | pending => exact good_same h rfl
  | aborted => exact good_same h rfl
  | failed => exact good_closeThrow hpre hd
  | ok =>
    simp only [recvHandler]
    split
    · exact good_dead hpre rfl
    · split
      · exact plain _ _ (wires_map _) rfl rfl rfl rfl rfl rfl rfl
      · split
        · exact plain _ _ (wires_map _) rfl rfl rfl rfl rfl rfl rfl
        · split
          · have := good_closeThrow (s := { s with rxSize := s.rxSize + n }) hpre hd
            unfold Good at this ⊢
            simp only [wires_append, wires_map, List.nil_append]
            exact this
          · exact plain _ _ (wires_map _) rfl rfl rfl rfl rfl rfl rfl

theorem sendOk_step {s : St} {S : List Bytes} {W : Bytes} (e : Ev) (h : SendOk s S W) :
    SendOk (step s e).1 (S ++ sends [e]) (W ++ wires (step s e).2) := by
  by_cases hd : s.dead = true
  · have : step s e = (s, []) := by simp [step, hd]
    rw [this]
    have hp := h.prefix
    unfold SendOk
    rw [if_pos hd]
    obtain ⟨t, ht⟩ := hp
    exact ⟨t ++ (sends [e]).flatten, by simp [wires, ← ht]⟩
  rw [show step s e = act s e by simp [step, hd]]
  have hdf : s.dead = false := by simpa using hd
  show Good (act s e) (S ++ sends [e]) W
  have same : Good (s, []) S W := good_same h rfl
  have key : (∀ b, e ≠ .send b) → Good (act s e) S W → Good (act s e) (S ++ sends [e]) W := by
    intro hs hg
    have : sends [e] = [] := by
      cases e <;> first | rfl | (rename_i b; exact absurd rfl (hs b))
    rw [this, List.append_nil]; exact hg
  cases e with
  | send b =>
    show Good (send s b) (S ++ sends [.send b]) W
    exact good_send b h hdf
  | pause => exact key (fun _ => by simp) (good_pause h hdf)
  | resume => exact key (fun _ => by simp) (good_resume h hdf)
  | close => exact key (fun _ => by simp) (good_close h.prefix hdf)
  | resolved k =>
    refine key (fun _ => by simp) ?_
    simp only [act]
    split
    · rename_i hr
      refine good_same ?_ rfl
      rcases Bool.eq_false_or_eq_true s.impl with hi | hi
      · obtain ⟨done, p, h⟩ := (sendOk_live hdf hi).1 h
        rw [sendOk_live (by exact hdf) (by exact hi)]
        have hc := h.conn (.inr (.inr (by rw [hr]; simp)))
        refine ⟨done, p, { sent := h.sent, wire := h.wire, front := h.front, write := h.write, conn := fun _ => hc, one := ?_, open' := h.open' }⟩
        intro e
        have := h.one e
        rw [hr] at this; cases this
      · have h := (sendOk_done hdf hi).1 h
        rw [sendOk_done (by exact hdf) (by exact hi)]
        exact { wire := h.wire, queue := h.queue, write := h.write, impl := hi }
    · exact same
  | connected k =>
    refine key (fun _ => by simp) ?_
    simp only [act]
    split
    · rename_i hr
      refine good_same ?_ rfl
      rcases Bool.eq_false_or_eq_true s.impl with hi | hi
      · obtain ⟨done, p, h⟩ := (sendOk_live hdf hi).1 h
        rw [sendOk_live (by exact hdf) (by exact hi)]
        have hc := h.conn (.inr (.inl (by rw [hr]; simp)))
        exact ⟨done, p, { sent := h.sent, wire := h.wire, front := h.front, write := h.write, conn := fun _ => hc,
                          one := fun _ => h.one (by rw [hr]; simp), open' := h.open' }⟩
      · have h := (sendOk_done hdf hi).1 h
        rw [sendOk_done (by exact hdf) (by exact hi)]
        exact { wire := h.wire, queue := h.queue, write := h.write, impl := hi }
    · exact same
  | timerFires =>
    refine key (fun _ => by simp) ?_
    simp only [act]
    split
    · refine good_same ?_ rfl
      exact h.congr rfl rfl rfl rfl rfl rfl rfl
    · exact same
  | written n =>
    refine key (fun _ => by simp) ?_
    simp only [act]
    cases hw : s.write with
    | none => simp only [hw] at same ⊢; exact same
    | some w =>
      simp only
      split
      · rename_i hk; exact good_written h hdf hw hk
      · exact same
  | writeFails =>
    refine key (fun _ => by simp) ?_
    simp only [act]
    cases hw : s.write with
    | none => exact same
    | some w =>
      simp only
      split
      · rename_i hk
        refine good_same ?_ rfl
        rcases Bool.eq_false_or_eq_true s.impl with hi | hi
        · obtain ⟨done, p, h⟩ := (sendOk_live hdf hi).1 h
          rw [sendOk_live (by exact hdf) (by exact hi)]
          refine ⟨done, p, { sent := h.sent, wire := h.wire, front := h.front, write := ?_, conn := ?_, one := h.one, open' := h.open' }⟩
          · intro w' hw'
            simp only [Option.some.injEq] at hw'
            subst hw'
            obtain ⟨b, q, h1, h2, -⟩ := h.write w hw
            exact ⟨b, q, h1, h2, fun e => by cases e⟩
          · intro e
            have := (h.conn e).2.1
            rw [hw] at this; cases this
        · have h := (sendOk_done hdf hi).1 h
          exact absurd hk (h.write w hw)
      · exact same
  | readable bs =>
    refine key (fun _ => by simp) ?_
    simp only [act]
    split
    · exact same
    · split
      · refine good_same ?_ rfl
        exact h.congr rfl rfl rfl rfl rfl rfl rfl
      · exact same
  | readFails =>
    refine key (fun _ => by simp) ?_
    simp only [act]
    refine good_same ?_ rfl
    exact h.congr rfl rfl rfl rfl rfl rfl rfl
  | hResolve =>
    refine key (fun _ => by simp) ?_
    simp only [act]
    cases hr : s.resolve with
    | none => exact same
    | some r =>
      simp only
      split
      · exact same
      · rename_i hk
        have hidle : ∀ (so : Bool) (c : Option Res), SendOk { s with resolve := none, connect := c, sockOpen := so } S W := by
          intro so c
          rcases Bool.eq_false_or_eq_true s.impl with hi | hi
          · obtain ⟨done, p, h⟩ := (sendOk_live hdf hi).1 h
            rw [sendOk_live (by exact hdf) (by exact hi)]
            have hc := h.conn (.inr (.inr (by rw [hr]; simp)))
            exact ⟨done, p, { sent := h.sent, wire := h.wire, front := h.front, write := h.write,
                              conn := fun _ => hc, one := fun _ => rfl, open' := h.open' }⟩
          · have h := (sendOk_done hdf hi).1 h
            rw [sendOk_done (by exact hdf) (by exact hi)]
            exact { wire := h.wire, queue := h.queue, write := h.write, impl := hi }
        cases r with
        | pending => exact absurd rfl hk
        | aborted => exact good_same (hidle s.sockOpen s.connect) rfl
        | failed => exact good_closeThrow h.prefix hdf
        | ok => exact good_same (hidle true (some .pending)) rfl
  | hConnect =>
    refine key (fun _ => by simp) ?_
    simp only [act]
    cases hr : s.connect with
    | none => exact same
    | some r =>
      simp only
      split
      · exact same
      · exact good_connect r h hdf (by rw [hr]; simp)
  | hTimer =>
    refine key (fun _ => by simp) ?_
    simp only [act]
    cases hr : s.timer with
    | none => exact same
    | some r =>
      simp only
      split
      · exact same
      · rename_i hk
        have hidle : SendOk { s with timer := none } S W := h.congr rfl rfl rfl rfl rfl rfl rfl
        cases r with
        | pending => exact absurd rfl hk
        | aborted => exact good_same hidle rfl
        | failed => exact good_same hidle rfl
        | ok => exact good_closeThrow h.prefix hdf
  | hWrite =>
    refine key (fun _ => by simp) ?_
    simp only [act]
    cases hw : s.write with
    | none => exact same
    | some w =>
      simp only
      split
      · exact same
      · rename_i hk; exact good_write h hdf hw hk
  | hRecv i =>
    refine key (fun _ => by simp) ?_
    simp only [act]
    cases hr : s.recvs[i]? with
    | none => exact same
    | some r =>
      simp only
      split
      · exact same
      · have h' : SendOk { s with recvs := s.recvs.eraseIdx i } S W :=
          h.congr rfl rfl rfl rfl rfl rfl rfl
        exact good_recv h' hdf r.res r.n

theorem run_ind {P : St → List Ev → List Out → Prop} (tcp : Bool)
    (h0 : P (init tcp) [] [])
    (hs : ∀ a e s o, run (init tcp) a = (s, o) → P s a o →
      P (step s e).1 (a ++ [e]) (o ++ (step s e).2)) (evs : List Ev) :
    P (run (init tcp) evs).1 evs (run (init tcp) evs).2 := by
  have key : ∀ (n : Nat), P (run (init tcp) (evs.take n)).1 (evs.take n)
      (run (init tcp) (evs.take n)).2 := by
    intro n
    induction n with
    | zero => simpa [run] using h0
    | succ n ih =>
      by_cases hn : n < evs.length
      · rw [List.take_succ, List.getElem?_eq_getElem hn, Option.toList_some, run_snoc]
        exact hs _ _ _ _ rfl ih
      · rw [List.take_of_length_le (by omega)]
        rwa [List.take_of_length_le (by omega)] at ih
  have := key evs.length
  rwa [List.take_length] at this

theorem sendOk_run (tcp : Bool) (evs : List Ev) :
    SendOk (run (init tcp) evs).1 (sends evs) (wires (run (init tcp) evs).2) := by
  refine run_ind (P := fun s evs o => SendOk s (sends evs) (wires o)) tcp (sendOk_init tcp) ?_ evs
  intro a e s o _ h
  rw [sends_append, wires_append]
  exact sendOk_step e h

end Ndn.Transport
