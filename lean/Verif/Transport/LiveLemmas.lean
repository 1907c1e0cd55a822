import Verif.Transport.SendLemmas

namespace Ndn.Transport
open Block Block.Spec Spec

/-! ### A queued packet is always being written, unless a write was interrupted by `pause` -/

structure LInv (s : St) : Prop where
  live : s.state ≠ .connecting → s.queue ≠ [] → ∃ w, s.write = some w ∧ w.res ≠ .aborted
  left : ∀ w, s.write = some w → w.res = .pending → w.left ≠ []
  nonempty : ∀ b ∈ s.queue, b ≠ []
  sock : s.state ≠ .connecting ∨ s.connect ≠ none → s.sockOpen = true

def Live (s : St) : Prop := s.dead = true ∨ s.impl = false ∨ LInv s

theorem linv_init (tcp : Bool) : LInv (init tcp) where
  live := by intro h; exact absurd rfl h
  left := by intro w h; cases h
  nonempty := by intro b hb; cases hb
  sock := by cases tcp <;> simp [init]

theorem live_closeThrow (s : St) : Live (closeThrow s).1 := by
  unfold closeThrow close
  split
  · exact .inr (.inl rfl)
  · exact .inl rfl

theorem live_close (s : St) : Live (close s).1 := by
  unfold close
  split
  · exact .inr (.inl rfl)
  · exact .inl rfl

theorem live_start {s : St} (hst : s.state ≠ .connecting) (hso : s.sockOpen = true)
    (hne : ∀ b ∈ s.queue, b ≠ []) : Live (asyncWrite s).1 := by
  unfold asyncWrite
  cases hq : s.queue with
  | nil => exact .inl rfl
  | cons b q =>
    refine .inr (.inr ?_)
    simp only [hso, if_true]
    exact { live := fun _ _ => ⟨_, rfl, by simp⟩,
            left := by
              intro w hw _
              simp only [Option.some.injEq] at hw
              subst hw
              exact hne b (by simp [hq]),
            nonempty := by intro x hx; exact hne x (hq ▸ hx),
            sock := fun _ => rfl }

theorem live_step {s : St} {S : List Bytes} {W : Bytes} (e : Ev) (h : Live s) (hs : SendOk s S W)
    (hp : e = .pause → ∀ w, s.write = some w → w.res ≠ .pending)
    (hb : ∀ b, e = .send b → b ≠ []) : Live (step s e).1 := by
  by_cases hd : s.dead = true
  · have : step s e = (s, []) := by simp [step, hd]
    rw [this]; exact .inl hd
  rw [show step s e = act s e by simp [step, hd]]
  have hdf : s.dead = false := by simpa using hd
  by_cases hi : s.impl = false
  · -- closed: `impl` stays false
    have key : ∀ s' : St, s'.impl = s.impl → Live s' := fun s' e => .inr (.inl (by rw [e, hi]))
    have hq := ((sendOk_done hdf hi).1 hs).queue
    cases e with
    | send b => simp only [act, send, hi]; exact .inl rfl
    | pause => simp only [act, pause, hi]; exact key s rfl
    | resume => simp only [act, resume, hi]; exact .inl rfl
    | close => exact live_close s
    | resolved k => simp only [act]; split <;> exact key _ rfl
    | connected k => simp only [act]; split <;> exact key _ rfl
    | timerFires => simp only [act]; split <;> exact key _ rfl
    | written n =>
      simp only [act]
      split
      · exact key _ rfl
      · split <;> exact key _ rfl
    | writeFails =>
      simp only [act]
      split
      · exact key _ rfl
      · split <;> exact key _ rfl
    | readable bs =>
      simp only [act]
      split
      · exact key _ rfl
      · split <;> exact key _ rfl
    | readFails => exact key _ rfl
    | hResolve =>
      simp only [act]
      split
      · exact key _ rfl
      · split
        · exact key _ rfl
        · rename_i r _ _
          cases r <;> first | exact key _ rfl | exact live_closeThrow _
    | hConnect =>
      simp only [act]
      split
      · exact key _ rfl
      · split
        · exact key _ rfl
        · rename_i r _ _
          cases r with
          | pending => exact key _ rfl
          | aborted => exact key _ rfl
          | failed => exact live_closeThrow _
          | ok =>
            simp only [connectHandler, hq]
            exact key _ rfl
    | hTimer =>
      simp only [act]
      split
      · exact key _ rfl
      · split
        · exact key _ rfl
        · rename_i r _ _
          cases r <;> first | exact key _ rfl | exact live_closeThrow _
    | hWrite =>
      simp only [act]
      split
      · exact key _ rfl
      · split
        · exact key _ rfl
        · rename_i w _ _
          cases w.res with
          | pending => exact key _ rfl
          | aborted => exact key _ rfl
          | failed => exact live_closeThrow _
          | ok =>
            simp only [writeHandler, hq]
            split
            · exact key _ rfl
            · exact .inl rfl
    | hRecv i =>
      simp only [act]
      split
      · exact key _ rfl
      · split
        · exact key _ rfl
        · rename_i r _ _
          cases r.res with
          | pending => exact key _ rfl
          | aborted => exact key _ rfl
          | failed => exact live_closeThrow _
          | ok =>
            simp only [recvHandler]
            split
            · exact .inl rfl
            · split
              · exact key _ rfl
              · split
                · exact key _ rfl
                · split
                  · exact live_closeThrow _
                  · exact key _ rfl
  have hi' : s.impl = true := by simpa using hi
  have hL : LInv s := by
    rcases h with h | h | h
    · exact absurd h hd
    · exact absurd h hi
    · exact h
  obtain ⟨done, p, hS⟩ := (sendOk_live hdf hi').1 hs
  have same : Live s := .inr (.inr hL)
  have noconn : s.state ≠ .connecting → s.connect = none ∧ s.resolve = none := by
    intro hst
    constructor
    · exact Classical.byContradiction fun e => hst (hS.conn (.inr (.inl e))).1
    · exact Classical.byContradiction fun e => hst (hS.conn (.inr (.inr e))).1
  cases e with
  | send b =>
    have hbne := hb b rfl
    simp only [act, send, hi', if_true]
    have hne : ∀ x ∈ s.queue ++ [b], x ≠ [] := by
      intro x hx
      rcases List.mem_append.1 hx with hx | hx
      · exact hL.nonempty x hx
      · simp at hx; rw [hx]; exact hbne
    split
    · rename_i hc
      exact live_start hc.2.1 (hL.sock (.inl hc.2.1)) hne
    · rename_i hc
      refine .inr (.inr { live := ?_, left := hL.left, nonempty := hne, sock := hL.sock })
      intro hst hq
      refine hL.live hst ?_
      intro e
      exact hc ⟨hS.open', hst, by simp [e]⟩
  | pause =>
    have hp' := hp rfl
    simp only [act, pause, hi', if_true]
    split
    · rename_i hs
      have hw : ∀ w, s.write = some w → ({ w with res := w.res.cancel } : WriteOp) = w := by
        intro w hw
        have := hp' w hw
        cases hr : w.res <;> rw [hr] at this <;> first | exact absurd rfl this | (cases w; simp_all [Res.cancel])
      have hwe : s.write.map (fun w => ({ w with res := w.res.cancel } : WriteOp)) = s.write := by
        cases hww : s.write with
        | none => rfl
        | some w => simp only [Option.map_some, hw w hww]
      refine .inr (.inr { live := ?_, left := ?_, nonempty := hL.nonempty, sock := ?_ })
      · intro _ hq
        show ∃ w, s.write.map _ = some w ∧ _
        rw [hwe]
        exact hL.live (by rw [hs]; simp) hq
      · show ∀ w, s.write.map _ = some w → _
        rw [hwe]; exact hL.left
      · intro _; exact hL.sock (.inl (by rw [hs]; simp))
    · exact same
  | resume =>
    simp only [act, resume, hi', if_true]
    unfold resumeImpl
    split
    · rename_i hs
      refine .inr (.inr { live := ?_, left := hL.left, nonempty := hL.nonempty, sock := ?_ })
      · intro _ hq; exact hL.live (by rw [hs]; simp) hq
      · intro _; exact hL.sock (.inl (by rw [hs]; simp))
    · exact same
  | close => exact live_close s
  | resolved k =>
    simp only [act]
    split
    · exact .inr (.inr ⟨hL.live, hL.left, hL.nonempty, hL.sock⟩)
    · exact same
  | connected k =>
    simp only [act]
    split
    · rename_i hc
      refine .inr (.inr ⟨hL.live, hL.left, hL.nonempty, ?_⟩)
      intro _; exact hL.sock (.inr (by rw [hc]; simp))
    · exact same
  | timerFires =>
    simp only [act]
    split
    · exact .inr (.inr ⟨hL.live, hL.left, hL.nonempty, hL.sock⟩)
    · exact same
  | written n =>
    simp only [act]
    split
    · exact same
    · rename_i w hw
      split
      · refine .inr (.inr ⟨?_, ?_, hL.nonempty, hL.sock⟩)
        · intro _ _; refine ⟨_, rfl, ?_⟩; simp only; split <;> simp
        · intro w' hw' hk
          simp only [Option.some.injEq] at hw'
          subst hw'
          simp only at hk ⊢
          split at hk
          · cases hk
          · assumption
      · exact same
  | writeFails =>
    simp only [act]
    split
    · exact same
    · rename_i w hw
      split
      · refine .inr (.inr ⟨?_, ?_, hL.nonempty, hL.sock⟩)
        · intro _ _; exact ⟨_, rfl, by simp⟩
        · intro w' hw' hk
          simp only [Option.some.injEq] at hw'
          subst hw'; cases hk
      · exact same
  | readable bs =>
    simp only [act]
    split
    · exact same
    · split
      · exact .inr (.inr ⟨hL.live, hL.left, hL.nonempty, hL.sock⟩)
      · exact same
  | readFails => exact .inr (.inr ⟨hL.live, hL.left, hL.nonempty, hL.sock⟩)
  | hResolve =>
    simp only [act]
    split
    · exact same
    · rename_i r hr
      split
      · exact same
      · have hst := (hS.conn (.inr (.inr (by rw [hr]; simp)))).1
        cases r with
        | pending => exact .inr (.inr ⟨hL.live, hL.left, hL.nonempty, hL.sock⟩)
        | aborted => exact .inr (.inr ⟨hL.live, hL.left, hL.nonempty, hL.sock⟩)
        | failed => exact live_closeThrow _
        | ok => exact .inr (.inr ⟨hL.live, hL.left, hL.nonempty, fun _ => rfl⟩)
  | hConnect =>
    simp only [act]
    split
    · exact same
    · rename_i r hr
      split
      · exact same
      · have hcn := hS.conn (.inr (.inl (by rw [hr]; simp)))
        have hso := hL.sock (.inr (by rw [hr]; simp))
        have hidle : Live { s with connect := none, timer := s.timer.map Res.cancel } := by
          refine .inr (.inr ⟨hL.live, hL.left, hL.nonempty, fun _ => hso⟩)
        cases r with
        | pending => exact hidle
        | aborted => exact hidle
        | failed => exact live_closeThrow _
        | ok =>
          simp only [connectHandler]
          split
          · rename_i hq
            have hq' : s.queue = [] := by simpa using hq
            refine .inr (.inr ⟨?_, hL.left, hL.nonempty, fun _ => hso⟩)
            intro _ hne; exact absurd hq' hne
          · unfold resumeImpl
            rw [if_pos rfl]
            exact live_start (by simp [asyncReceive]) hso hL.nonempty
  | hTimer =>
    simp only [act]
    split
    · exact same
    · rename_i r hr
      split
      · exact same
      · have hidle : Live { s with timer := none } :=
          .inr (.inr ⟨hL.live, hL.left, hL.nonempty, hL.sock⟩)
        cases r with
        | pending => exact hidle
        | aborted => exact hidle
        | failed => exact hidle
        | ok => exact live_closeThrow _
  | hWrite =>
    simp only [act]
    split
    · exact same
    · rename_i w hw
      split
      · exact same
      · rename_i hk
        have hnc : s.state ≠ .connecting := by
          intro e
          have := (hS.conn (.inl e)).2.1
          rw [hw] at this; cases this
        obtain ⟨b, q, h1, h2, h3⟩ := hS.write w hw
        obtain ⟨w', hw', hna⟩ := hL.live hnc (by rw [h1]; simp)
        have : w' = w := by rw [hw] at hw'; exact (Option.some.inj hw').symm
        subst this
        cases hr : w'.res with
        | pending => exact absurd hr hk
        | aborted => exact absurd hr hna
        | failed => exact live_closeThrow _
        | ok =>
          simp only [writeHandler, h1]
          rw [if_neg hS.open']
          have hne : ∀ x ∈ q, x ≠ [] := fun x hx => hL.nonempty x (by rw [h1]; simp [hx])
          split
          · rename_i hq
            have hq' : q = [] := by simpa using hq
            refine .inr (.inr ⟨?_, ?_, hne, hL.sock⟩)
            · intro _ hx; exact absurd hq' hx
            · intro x hx; cases hx
          · exact live_start hnc (hL.sock (.inl hnc)) hne
  | hRecv i =>
    simp only [act]
    split
    · exact same
    · rename_i r hr
      split
      · exact same
      · have plain : ∀ s' : St, s'.state = s.state → s'.queue = s.queue → s'.write = s.write →
            s'.connect = s.connect → s'.sockOpen = s.sockOpen → Live s' := by
          intro s' e1 e2 e3 e4 e5
          refine .inr (.inr ⟨?_, ?_, ?_, ?_⟩)
          · rw [e1, e2, e3]; exact hL.live
          · rw [e3]; exact hL.left
          · rw [e2]; exact hL.nonempty
          · rw [e1, e4, e5]; exact hL.sock
        cases r.res with
        | pending => exact plain _ rfl rfl rfl rfl rfl
        | aborted => exact plain _ rfl rfl rfl rfl rfl
        | failed => exact live_closeThrow _
        | ok =>
          simp only [recvHandler]
          split
          · exact .inl rfl
          · split
            · exact plain _ rfl rfl rfl rfl rfl
            · split
              · exact plain _ rfl rfl rfl rfl rfl
              · split
                · exact live_closeThrow _
                · exact plain _ rfl rfl rfl rfl rfl

theorem flatten_eq_nil {q : List Bytes} (h : q.flatten = []) (hne : ∀ b ∈ q, b ≠ []) : q = [] := by
  cases q with
  | nil => rfl
  | cons b q =>
    simp only [List.flatten_cons, List.append_eq_nil_iff] at h
    exact absurd h.1 (hne b (by simp))

/-- When everything sent has gone out, no write is pending. -/
theorem idle_of_all {s : St} {S : List Bytes} {W : Bytes} (h : Live s) (hs : SendOk s S W)
    (hd : s.dead = false) (hW : W = S.flatten) : ∀ w, s.write = some w → w.res ≠ .pending := by
  intro w hw hk
  rcases Bool.eq_false_or_eq_true s.impl with hi | hi
  · have hL : LInv s := by
      rcases h with h | h | h
      · rw [hd] at h; cases h
      · rw [hi] at h; cases h
      · exact h
    obtain ⟨done, p, hS⟩ := (sendOk_live hd hi).1 hs
    obtain ⟨b, q, h1, h2, -⟩ := hS.write w hw
    have : done.flatten ++ p = done.flatten ++ ((p ++ w.left) ++ q.flatten) := by
      have := hS.wire
      rw [hW, hS.sent, h1, h2] at this
      simpa using this.symm
    have h3 := List.append_cancel_left this
    have h4 : w.left ++ q.flatten = [] := by
      have : p ++ [] = p ++ (w.left ++ q.flatten) := by simpa using h3
      exact (List.append_cancel_left this).symm
    exact hL.left w hw hk (List.append_eq_nil_iff.1 h4).1
  · exact ((sendOk_done hd hi).1 hs).write w hw hk

theorem live_run (tcp : Bool) (evs : List Ev) (hp : PauseIdle tcp evs)
    (hb : ∀ b ∈ sends evs, b ≠ []) : Live (run (init tcp) evs).1 := by
  have := run_ind (P := fun s evs o => PauseIdle tcp evs → (∀ b ∈ sends evs, b ≠ []) → Live s) tcp
    (fun _ _ => .inr (.inr (linv_init tcp))) (by
      intro a e s o hr ih hp hb
      have hp' : PauseIdle tcp a := by
        intro x y hxy
        exact hp x (y ++ [e]) (by rw [hxy]; simp)
      have hb' : ∀ b ∈ sends a, b ≠ [] := fun b h => hb b (by rw [sends_append]; simp [h])
      have hl := ih hp' hb'
      have hs := sendOk_run tcp a
      rw [hr] at hs
      by_cases hd : s.dead = true
      · have : step s e = (s, []) := by simp [step, hd]
        rw [this]; exact .inl hd
      refine live_step e hl hs ?_ ?_
      · rintro rfl
        refine idle_of_all hl hs (by simpa using hd) ?_
        have := hp a [] rfl
        rw [hr] at this; exact this
      · rintro b rfl
        exact hb b (by rw [sends_append]; simp [sends])) evs
  exact this hp hb

/-! ### Draining the queue -/

theorem drain {s : St} {S : List Bytes} {W : Bytes} (hs : SendOk s S W) (hd : s.dead = false)
    (hi : s.impl = true) (hL : LInv s) (hc : s.state ≠ .connecting)
    (hf : ∀ w, s.write = some w → w.res ≠ .failed) :
    ∃ es : List Ev, (∀ e ∈ es, ∃ n, e = .written n ∨ e = .hWrite) ∧
      W ++ wires (run s es).2 = S.flatten := by
  generalize hn : s.queue.length = n
  induction n generalizing s W with
  | zero =>
    obtain ⟨done, p, hS⟩ := (sendOk_live hd hi).1 hs
    have hq : s.queue = [] := List.length_eq_zero_iff.1 hn
    refine ⟨[], by simp, ?_⟩
    rw [hS.wire, hS.sent, hq, flatten_done hS.front hq]
    simp [run, wires]
  | succ n ih =>
    obtain ⟨done, p, hS⟩ := (sendOk_live hd hi).1 hs
    have hqne : s.queue ≠ [] := by intro e; rw [e] at hn; cases hn
    obtain ⟨w, hw, hna⟩ := hL.live hc hqne
    -- the packet at the front goes out completely and its handler runs
    have stage : ∀ (s1 : St) (W1 : Bytes), SendOk s1 S W1 → s1.dead = false → s1.impl = true →
        LInv s1 → s1.state ≠ .connecting → s1.queue.length = n + 1 →
        (∃ w, s1.write = some w ∧ w.res = .ok) →
        ∃ es : List Ev, (∀ e ∈ es, ∃ n, e = .written n ∨ e = .hWrite) ∧
          W1 ++ wires (run s1 es).2 = S.flatten := by
      intro s1 W1 hs1 hd1 hi1 hL1 hc1 hn1 hw1
      obtain ⟨w1, hw1, hk1⟩ := hw1
      obtain ⟨done1, p1, hS1⟩ := (sendOk_live hd1 hi1).1 hs1
      obtain ⟨b, q, h1, h2, h3⟩ := hS1.write w1 hw1
      have hlen : q.length = n := by rw [h1] at hn1; simpa using hn1
      have hso := hL1.sock (.inl hc1)
      have hne : ∀ x ∈ q, x ≠ [] := fun x hx => hL1.nonempty x (by rw [h1]; simp [hx])
      have hstep : ∃ s2, step s1 .hWrite = (s2, []) ∧ s2.dead = false ∧ s2.impl = true ∧
          s2.state = s1.state ∧ s2.queue = q ∧ (∀ w, s2.write = some w → w.res ≠ .failed) := by
        simp only [step, hd1, act, hw1, hk1, writeHandler, h1, hS1.open']
        cases q with
        | nil => exact ⟨_, rfl, rfl, hi1, rfl, rfl, fun w hw => by cases hw⟩
        | cons c q =>
          refine ⟨_, rfl, rfl, hi1, rfl, rfl, ?_⟩
          intro w hw
          simp only [hso] at hw
          have := Option.some.inj hw
          rw [← this]; simp
      obtain ⟨s2, e2, d2, i2, st2, q2, f2⟩ := hstep
      have ok2 := sendOk_step .hWrite hs1
      have l2 := live_step .hWrite (.inr (.inr hL1)) hs1 (by intro e; cases e) (by intro b e; cases e)
      rw [e2] at ok2 l2
      have hL2 : LInv s2 := by
        rcases l2 with l | l | l
        · rw [d2] at l; cases l
        · rw [i2] at l; cases l
        · exact l
      obtain ⟨es, he, hr⟩ := ih (s := s2) (W := W1) (by simpa [sends, wires] using ok2) d2 i2 hL2
        (by rw [st2]; exact hc1) f2 (by rw [q2]; exact hlen)
      refine ⟨.hWrite :: es, ?_, ?_⟩
      · intro e hx
        rcases List.mem_cons.1 hx with rfl | hx
        · exact ⟨0, .inr rfl⟩
        · exact he e hx
      · rw [← hr]
        simp only [run, e2, List.nil_append]
    cases hr : w.res with
    | aborted => exact absurd hr hna
    | failed => exact absurd hr (hf w hw)
    | ok => exact stage s W hs hd hi hL hc hn ⟨w, hw, hr⟩
    | pending =>
      have e1 : step s (.written w.left.length) =
          ({ s with write := some ⟨[], .ok⟩ }, [.wire w.left]) := by
        simp [step, hd, act, hw, hr]
      have ok1 := sendOk_step (.written w.left.length) hs
      have l1 := live_step (.written w.left.length) (.inr (.inr hL)) hs (by intro e; cases e)
        (by intro b e; cases e)
      rw [e1] at ok1 l1
      have hL1 : LInv { s with write := some ⟨[], .ok⟩ } := by
        rcases l1 with l | l | l
        · rw [show (({ s with write := some ⟨[], .ok⟩ } : St)).dead = s.dead from rfl, hd] at l; cases l
        · rw [show (({ s with write := some ⟨[], .ok⟩ } : St)).impl = s.impl from rfl, hi] at l; cases l
        · exact l
      obtain ⟨es, he, hx⟩ := stage { s with write := some ⟨[], .ok⟩ } (W ++ w.left)
        (by simpa [sends, wires] using ok1) hd hi hL1 hc hn ⟨_, rfl, rfl⟩
      refine ⟨.written w.left.length :: es, ?_, ?_⟩
      · intro e hm
        rcases List.mem_cons.1 hm with rfl | hm
        · exact ⟨_, .inl rfl⟩
        · exact he e hm
      · rw [← hx]
        simp only [run, e1, wires_append]
        simp [wires]

/-! ### A stalled transport never writes again -/

def Stalled (s : St) : Prop :=
  s.write = none ∧ s.connect = none ∧ s.resolve = none ∧
    (s.dead = true ∨ s.impl = false ∨ s.queue ≠ [])

theorem stalled_close {s : St} (h : Stalled s) : Stalled (close s).1 ∧ wires (close s).2 = [] := by
  refine ⟨?_, (close_outs s).2.2⟩
  obtain ⟨h1, h2, h3, -⟩ := h
  unfold close
  split
  · exact ⟨by simp [closeImpl, cancelSocket, h1], by simp [closeImpl, cancelSocket, h2], h3,
      .inr (.inl rfl)⟩
  · exact ⟨h1, h2, h3, .inl rfl⟩

theorem stalled_closeThrow {s : St} (h : Stalled s) :
    Stalled (closeThrow s).1 ∧ wires (closeThrow s).2 = [] := by
  refine ⟨?_, (closeThrow_outs s).2.2⟩
  unfold closeThrow
  split <;> exact (stalled_close h).1

theorem stalled_step {s : St} (e : Ev) (h : Stalled s) :
    Stalled (step s e).1 ∧ wires (step s e).2 = [] := by
  by_cases hd : s.dead = true
  · have : step s e = (s, []) := by simp [step, hd]
    rw [this]; exact ⟨h, rfl⟩
  rw [show step s e = act s e by simp [step, hd]]
  obtain ⟨h1, h2, h3, h4⟩ := h
  have h4' : s.impl = false ∨ s.queue ≠ [] := h4.resolve_left hd
  have h : Stalled s := ⟨h1, h2, h3, h4⟩
  have plain : ∀ s' : St, s'.write = s.write → s'.connect = s.connect → s'.resolve = s.resolve →
      s'.impl = s.impl → s'.queue = s.queue → Stalled s' := by
    intro s' e1 e2 e3 e4 e5
    refine ⟨by rw [e1, h1], by rw [e2, h2], by rw [e3, h3], .inr ?_⟩
    rw [e4, e5]; exact h4'
  cases e with
  | send b =>
    simp only [act, send]
    split
    · rename_i hi
      have hq : s.queue ≠ [] := h4'.resolve_left (by rw [hi]; simp)
      split
      · rename_i hc
        exfalso
        have := hc.2.2
        simp at this; exact hq this
      · exact ⟨⟨h1, h2, h3, .inr (.inr (by simp))⟩, rfl⟩
    · exact ⟨⟨h1, h2, h3, .inl rfl⟩, rfl⟩
  | pause =>
    simp only [act, pause]
    refine ⟨?_, rfl⟩
    split
    · split
      · exact ⟨by simp [cancelSocket, h1], by simp [cancelSocket, h2], h3, .inr h4'⟩
      · exact h
    · exact h
  | resume =>
    simp only [act, resume, resumeImpl]
    split
    · refine ⟨?_, rfl⟩
      simp only
      split
      · exact plain _ rfl rfl rfl rfl rfl
      · exact h
    · exact ⟨⟨h1, h2, h3, .inl rfl⟩, rfl⟩
  | close => exact stalled_close h
  | resolved k => simp [act, h3]; exact ⟨h, rfl⟩
  | connected k => simp [act, h2]; exact ⟨h, rfl⟩
  | timerFires =>
    simp only [act]
    split
    · exact ⟨plain _ rfl rfl rfl rfl rfl, rfl⟩
    · exact ⟨h, rfl⟩
  | written n => simp only [act, h1]; exact ⟨h, rfl⟩
  | writeFails => simp only [act, h1]; exact ⟨h, rfl⟩
  | readable bs =>
    simp only [act]
    split
    · exact ⟨h, rfl⟩
    · split
      · exact ⟨plain _ rfl rfl rfl rfl rfl, rfl⟩
      · exact ⟨h, rfl⟩
  | readFails => exact ⟨plain _ rfl rfl rfl rfl rfl, rfl⟩
  | hResolve => simp only [act, h3]; exact ⟨h, rfl⟩
  | hConnect => simp only [act, h2]; exact ⟨h, rfl⟩
  | hTimer =>
    simp only [act]
    split
    · exact ⟨h, rfl⟩
    · rename_i r hr
      split
      · exact ⟨h, rfl⟩
      · have hx : Stalled { s with timer := none } := plain _ rfl rfl rfl rfl rfl
        cases r with
        | pending => exact ⟨hx, rfl⟩
        | aborted => exact ⟨hx, rfl⟩
        | failed => exact ⟨hx, rfl⟩
        | ok => exact stalled_closeThrow hx
  | hWrite => simp only [act, h1]; exact ⟨h, rfl⟩
  | hRecv i =>
    simp only [act]
    split
    · exact ⟨h, rfl⟩
    · rename_i r hr
      split
      · exact ⟨h, rfl⟩
      · refine ⟨?_, wires_recv _ _ _⟩
        have hx : Stalled { s with recvs := s.recvs.eraseIdx i } := plain _ rfl rfl rfl rfl rfl
        cases r.res with
        | pending => exact hx
        | aborted => exact hx
        | failed => exact (stalled_closeThrow hx).1
        | ok =>
          simp only [recvHandler]
          split
          · exact ⟨h1, h2, h3, .inl rfl⟩
          · split
            · exact plain _ rfl rfl rfl rfl rfl
            · split
              · exact plain _ rfl rfl rfl rfl rfl
              · split
                · have hy : Stalled { s with recvs := s.recvs.eraseIdx i, rxSize := s.rxSize + r.n } :=
                    plain _ rfl rfl rfl rfl rfl
                  exact (stalled_closeThrow hy).1
                · exact plain _ rfl rfl rfl rfl rfl

theorem stalled_run {s : St} (evs : List Ev) (h : Stalled s) : wires (run s evs).2 = [] := by
  induction evs generalizing s with
  | nil => rfl
  | cons e es ih =>
    obtain ⟨h1, h2⟩ := stalled_step e h
    simp only [run, wires_append, h2, ih h1, List.nil_append]

end Ndn.Transport
