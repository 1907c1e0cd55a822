import Verif.Transport.LiveLemmas

namespace Ndn.Transport
open Block Block.Spec Spec

/-! ### Packets and frames -/

theorem prefix_shorter {a b c d : Bytes} (h : a ++ b = c ++ d) (hl : c.length ≤ a.length) :
    ∃ r, a = c ++ r := by
  refine ⟨a.drop c.length, ?_⟩
  have : a.take c.length = c := by
    have h1 := congrArg (List.take c.length) h
    rw [List.take_append_of_le_length hl, List.take_left] at h1
    exact h1
  rw [← List.take_append_drop c.length a, this]
  simp

/-- Octets that begin a sequence of packets are cut into exactly the packets they contain. -/
theorem frames_packets {H t rest : Bytes} {D ps : List Raw} (hf : Frames H D rest)
    (hp : H ++ t = (ps.map Raw.wire).flatten) (hw : ∀ p ∈ ps, TlvForm p.wire p.type p.value) :
    ∃ qs, ps = D ++ qs ∧ (qs = [] → rest = []) ∧ ∀ q qs', qs = q :: qs' → rest.length < q.wire.length := by
  induction D generalizing H ps with
  | nil =>
    obtain ⟨h1, -, h3⟩ := hf
    simp at h1; subst h1
    refine ⟨ps, rfl, ?_, ?_⟩
    · rintro rfl
      simp at hp; exact hp.1
    · rintro q qs rfl
      apply Classical.byContradiction
      intro hl
      obtain ⟨r, hr⟩ := prefix_shorter (by rw [hp]; simp; rfl) (by omega : q.wire.length ≤ H.length)
      exact h3 _ _ _ r hr (hw q (by simp))
  | cons e D ih =>
    obtain ⟨h1, h2, h3⟩ := hf
    have he := h2 e (by simp)
    cases ps with
    | nil =>
      have := wire_pos he
      have hl := congrArg List.length hp
      rw [h1] at hl
      simp only [List.map_cons, List.flatten_cons, List.length_append, List.map_nil,
        List.flatten_nil, List.length_nil] at hl
      omega
    | cons p ps =>
      have k1 := fromBuffer_iff (bs := ((p :: ps).map Raw.wire).flatten) (r := e)
        (rest := (D.map Raw.wire).flatten ++ rest ++ t) |>.2
        ⟨by rw [← hp, h1]; simp only [List.map_cons, List.flatten_cons, List.append_assoc], he⟩
      have k2 := fromBuffer_iff (bs := ((p :: ps).map Raw.wire).flatten) (r := p)
        (rest := (ps.map Raw.wire).flatten) |>.2
        ⟨by simp only [List.map_cons, List.flatten_cons], hw p (by simp)⟩
      rw [k1] at k2
      simp only [Option.some.injEq, Prod.mk.injEq] at k2
      obtain ⟨rfl, k2⟩ := k2
      obtain ⟨qs, q1, q2, q3⟩ := ih (H := (D.map Raw.wire).flatten ++ rest) (ps := ps)
        ⟨rfl, fun x hx => h2 x (by simp [hx]), h3⟩ k2 (fun x hx => hw x (by simp [hx]))
      exact ⟨qs, by rw [q1]; rfl, q2, q3⟩

/-! ### A working network never makes the transport fail -/

structure HInv (s : St) : Prop where
  alive : s.dead = false
  impl : s.impl = true
  sock : s.state ≠ .connecting ∨ s.connect ≠ none → s.sockOpen = true
  resolve : ∀ r, s.resolve = some r → r = .pending ∨ r = .ok
  connect : ∀ r, s.connect = some r → r = .pending ∨ r = .ok
  timer : ∀ r, s.timer = some r → r = .pending ∨ r = .aborted
  write : ∀ w, s.write = some w → w.res = .pending ∨ w.res = .ok
  recvs : ∀ r ∈ s.recvs, r.res = .pending ∨ r.res = .ok
  running : s.state = .running → s.recvs ≠ []

def NoFail (o : List Out) : Prop := Out.threw ∉ o ∧ Out.ub ∉ o

theorem nofail_nil : NoFail [] := by simp [NoFail]

theorem nofail_map (es : List Raw) : NoFail (es.map Out.deliver) := by
  constructor <;> (intro h; simp at h)

theorem hinv_init (tcp : Bool) : HInv (init tcp) where
  alive := rfl
  impl := rfl
  sock := by cases tcp <;> simp [init]
  resolve := by cases tcp <;> simp [init]
  connect := by cases tcp <;> simp [init]
  timer := by simp [init]
  write := by simp [init]
  recvs := by simp [init]
  running := by simp [init]

theorem hinv_asyncWrite {s : St} (h : HInv s) (hq : s.queue ≠ []) (hst : s.state ≠ .connecting) :
    HInv (asyncWrite s).1 ∧ NoFail (asyncWrite s).2 := by
  unfold asyncWrite
  cases hqq : s.queue with
  | nil => exact absurd hqq hq
  | cons b q =>
    refine ⟨{ alive := h.alive, impl := h.impl, sock := h.sock, resolve := h.resolve,
              connect := h.connect, timer := h.timer, write := ?_, recvs := h.recvs,
              running := h.running }, nofail_nil⟩
    intro w hw
    have := Option.some.inj hw
    rw [← this, h.sock (.inl hst)]; exact .inl rfl

theorem hinv_asyncReceive {s : St} (h : HInv s) (hst : s.state ≠ .connecting) :
    HInv (asyncReceive s) := by
  refine { alive := h.alive, impl := h.impl, sock := h.sock, resolve := h.resolve,
           connect := h.connect, timer := h.timer, write := h.write, recvs := ?_,
           running := fun _ => by simp [asyncReceive] }
  intro r hr
  simp only [asyncReceive, List.mem_append, List.mem_singleton] at hr
  rcases hr with hr | rfl
  · exact h.recvs r hr
  · rw [h.sock (.inl hst)]; exact .inl rfl

theorem hinv_step {s : St} {S : List Bytes} {W R H Wt rest : Bytes} {D : List Raw} (e : Ev)
    (h : HInv s) (hS : SendOk s S W) (hR : RInv s R D H Wt rest) (he : Healthy e)
    (hp : e ≠ .pause) (hc : e ≠ .close) {ps : List Raw} {t : Bytes}
    (hps : R ++ t = (ps.map Raw.wire).flatten)
    (hw : ∀ p ∈ ps, TlvForm p.wire p.type p.value) (hmax : ∀ p ∈ ps, p.wire.length ≤ maxPacket) :
    HInv (step s e).1 ∧ NoFail (step s e).2 := by
  have hd := h.alive
  have hi := h.impl
  rw [show step s e = act s e by simp [step, hd]]
  have same : HInv s ∧ NoFail [] := ⟨h, nofail_nil⟩
  obtain ⟨done, p, hI⟩ := (sendOk_live hd hi).1 hS
  cases e with
  | pause => exact absurd rfl hp
  | close => exact absurd rfl hc
  | send b =>
    simp only [act, send, hi, if_true]
    have h' : HInv { s with queue := s.queue ++ [b] } :=
      ⟨h.alive, h.impl, h.sock, h.resolve, h.connect, h.timer, h.write, h.recvs, h.running⟩
    simp only [hi] at h'
    split
    · rename_i hk
      exact hinv_asyncWrite h' (by simp) hk.2.1
    · exact ⟨h', nofail_nil⟩
  | resume =>
    simp only [act, resume, hi, if_true]
    unfold resumeImpl
    split
    · rename_i hs
      refine ⟨?_, nofail_nil⟩
      have hso := h.sock (.inl (by rw [hs]; simp))
      refine { alive := hd, impl := hi, sock := fun _ => hso, resolve := h.resolve,
               connect := h.connect, timer := h.timer, write := h.write, recvs := ?_,
               running := fun _ => by simp [asyncReceive] }
      intro r hr
      simp only [asyncReceive, List.mem_append, List.mem_singleton] at hr
      rcases hr with hr | rfl
      · exact h.recvs r hr
      · rw [hso]; exact .inl rfl
    · exact ⟨h, nofail_nil⟩
  | resolved k =>
    simp only [Healthy] at he
    subst he
    simp only [act]
    split
    · refine ⟨⟨h.alive, h.impl, h.sock, ?_, h.connect, h.timer, h.write, h.recvs, h.running⟩,
        nofail_nil⟩
      intro r hr
      simp at hr; subst hr; exact .inr rfl
    · exact same
  | connected k =>
    simp only [Healthy] at he
    subst he
    simp only [act]
    split
    · rename_i hcp
      refine ⟨⟨h.alive, h.impl, fun _ => h.sock (.inr (by rw [hcp]; simp)), h.resolve, ?_, h.timer,
        h.write, h.recvs, h.running⟩, nofail_nil⟩
      intro r hr
      simp at hr; subst hr; exact .inr rfl
    · exact same
  | timerFires => exact absurd he id
  | written n =>
    simp only [act]
    split
    · exact same
    · split
      · refine ⟨⟨h.alive, h.impl, h.sock, h.resolve, h.connect, h.timer, ?_, h.recvs, h.running⟩,
          by simp [NoFail]⟩
        intro w hw'
        have := Option.some.inj hw'
        rw [← this]
        simp only
        split
        · exact .inr rfl
        · exact .inl rfl
      · exact same
  | writeFails => exact absurd he id
  | readable bs =>
    simp only [act]
    split
    · exact same
    · rename_i rs off hfl
      split
      · refine ⟨⟨h.alive, h.impl, h.sock, h.resolve, h.connect, h.timer, h.write, ?_, ?_⟩,
          by simp [NoFail]⟩
        · rcases hR.ops with ⟨h1, -⟩ | ⟨r, h1, -⟩
          · rw [h1] at hfl; simp [fill] at hfl
          · rw [h1] at hfl
            by_cases hk : r.res = .pending
            · simp only [fill, if_pos hk, Option.some.injEq, Prod.mk.injEq] at hfl
              obtain ⟨rfl, -⟩ := hfl
              intro x hx
              simp at hx; subst hx; exact .inr rfl
            · simp [fill, if_neg hk] at hfl
        · intro _
          rcases hR.ops with ⟨h1, -⟩ | ⟨r, h1, -⟩
          · rw [h1] at hfl; simp [fill] at hfl
          · rw [h1] at hfl
            by_cases hk : r.res = .pending
            · simp only [fill, if_pos hk, Option.some.injEq, Prod.mk.injEq] at hfl
              obtain ⟨rfl, -⟩ := hfl
              simp
            · simp [fill, if_neg hk] at hfl
      · exact same
  | readFails => exact absurd he id
  | hResolve =>
    simp only [act]
    split
    · exact same
    · rename_i r hr
      split
      · exact same
      · rename_i hk
        have := (h.resolve r hr).resolve_left hk
        subst this
        refine ⟨⟨h.alive, h.impl, fun _ => rfl, by simp [resolveHandler], ?_, h.timer, h.write, h.recvs,
          h.running⟩, nofail_nil⟩
        intro r hr'
        have := Option.some.inj hr'
        rw [← this]; exact .inl rfl
  | hConnect =>
    simp only [act]
    split
    · exact same
    · rename_i r hr
      split
      · exact same
      · rename_i hk
        have := (h.connect r hr).resolve_left hk
        subst this
        have hso := h.sock (.inr (by rw [hr]; simp))
        have hti : ∀ r, s.timer.map Res.cancel = some r → r = .pending ∨ r = .aborted := by
          intro r hr
          simp only [Option.map_eq_some_iff] at hr
          obtain ⟨r', h1, rfl⟩ := hr
          rcases h.timer r' h1 with rfl | rfl <;> exact .inr rfl
        have h' : HInv { s with connect := none, timer := s.timer.map Res.cancel, state := .paused } :=
          ⟨h.alive, h.impl, fun _ => hso, h.resolve, by simp, hti, h.write, h.recvs, by simp⟩
        simp only [connectHandler]
        split
        · exact ⟨h', nofail_nil⟩
        · rename_i hq
          unfold resumeImpl
          rw [if_pos rfl]
          refine hinv_asyncWrite ?_ ?_ (by simp [asyncReceive])
          · refine { alive := hd, impl := hi, sock := fun _ => hso, resolve := h.resolve,
                     connect := by simp [asyncReceive], timer := hti, write := h.write, recvs := ?_,
                     running := fun _ => by simp [asyncReceive] }
            intro r hr
            simp only [asyncReceive, List.mem_append, List.mem_singleton] at hr
            rcases hr with hr | rfl
            · exact h.recvs r hr
            · rw [hso]; exact .inl rfl
          · intro e; exact hq (by simpa [asyncReceive] using e)
  | hTimer =>
    simp only [act]
    split
    · exact same
    · rename_i r hr
      split
      · exact same
      · rename_i hk
        have := (h.timer r hr).resolve_left hk
        subst this
        exact ⟨⟨h.alive, h.impl, h.sock, h.resolve, h.connect, by simp [timerHandler], h.write, h.recvs,
          h.running⟩, nofail_nil⟩
  | hWrite =>
    simp only [act]
    split
    · exact same
    · rename_i w hww
      split
      · exact same
      · rename_i hk
        have hok := (h.write w hww).resolve_left hk
        rw [hok]
        obtain ⟨b, q, h1, -, -⟩ := hI.write w hww
        have hnc : s.state ≠ .connecting := by
          intro e
          have := (hI.conn (.inl e)).2.1
          rw [hww] at this; cases this
        have h' : HInv { s with write := none, queue := q } :=
          ⟨h.alive, h.impl, h.sock, h.resolve, h.connect, h.timer, by simp, h.recvs, h.running⟩
        simp only [writeHandler, h1]
        rw [if_neg hI.open']
        split
        · exact ⟨h', nofail_nil⟩
        · rename_i hq
          exact hinv_asyncWrite h' (by simpa using hq) hnc
  | hRecv i =>
    simp only [act]
    split
    · exact same
    · rename_i r hr
      split
      · exact same
      · rename_i hk
        rcases hR.ops with ⟨h1, -⟩ | ⟨r', h1, h2, h3, h4, h5, h6, h7⟩
        · rw [h1] at hr; simp at hr
        have hi0 : i = 0 ∧ r' = r := by
          rw [h1] at hr
          cases i with
          | zero => simp at hr; exact ⟨rfl, hr⟩
          | succ i => simp at hr
        obtain ⟨rfl, rfl⟩ := hi0
        have hst := hR.started (.inl (by rw [h1]; simp))
        have hrun : s.state = .running := hst.2.2.resolve_right hI.open'
        have hok := (h.recvs r' (by rw [h1]; simp)).resolve_left hk
        obtain ⟨k1, k2, k3, k4⟩ := h5 hok
        rw [hok, k2]
        simp only [recvHandler]
        rw [if_neg (by omega)]
        have hav : s.rx.take (s.rxSize + Wt.length) = rest ++ Wt := by rw [h3]; exact k4
        simp only [hav]
        have hfr := frames_append hR.frames
          (extract_frames (rest ++ Wt).length (rest ++ Wt) (Nat.le_refl _))
        obtain ⟨qs, q1, q2, q3⟩ := frames_packets hfr (by rw [← hR.split]; exact hps) hw
        have hlt : (extract (rest ++ Wt).length (rest ++ Wt)).2.length < maxPacket := by
          cases hqs : qs with
          | nil => rw [q2 hqs]; simp [maxPacket]
          | cons q qs' =>
            have := q3 q qs' hqs
            have := hmax q (by rw [q1, hqs]; simp)
            omega
        have base : ∀ (rx : Bytes) (n : Nat), HInv (asyncReceive
            { s with recvs := s.recvs.eraseIdx 0, rx := rx, rxSize := n }) := by
          intro rx n
          have hso := h.sock (.inl (by rw [hrun]; simp))
          refine { alive := hd, impl := hi, sock := fun _ => hso, resolve := h.resolve,
                   connect := h.connect, timer := h.timer, write := h.write, recvs := ?_,
                   running := fun _ => by simp [asyncReceive] }
          intro r hr
          simp only [asyncReceive, List.mem_append, List.mem_singleton, h1] at hr
          rcases hr with hr | rfl
          · simp at hr
          · rw [hso]; exact .inl rfl
        split
        · exact ⟨base _ _, nofail_map _⟩
        · split
          · exact ⟨base _ _, nofail_map _⟩
          · split
            · omega
            · exact ⟨base _ _, nofail_map _⟩

theorem hinv_run (tcp : Bool) (evs : List Ev) (he : ∀ e ∈ evs, Healthy e) (hp : Ev.pause ∉ evs)
    (hc : Ev.close ∉ evs) (ps : List Raw) (hw : ∀ p ∈ ps, TlvForm p.wire p.type p.value)
    (hmax : ∀ p ∈ ps, p.wire.length ≤ maxPacket)
    (hr : reads (run (init tcp) evs).2 <+: (ps.map Raw.wire).flatten) :
    HInv (run (init tcp) evs).1 ∧ NoFail (run (init tcp) evs).2 := by
  have := run_ind (P := fun s evs o => (∀ e ∈ evs, Healthy e) → Ev.pause ∉ evs → Ev.close ∉ evs →
      reads o <+: (ps.map Raw.wire).flatten → HInv s ∧ NoFail o) tcp
    (fun _ _ _ _ => ⟨hinv_init tcp, nofail_nil⟩) (by
      intro a e s o hrun ih he hp hc hr
      rw [reads_append] at hr
      have hr' : reads o <+: (ps.map Raw.wire).flatten := (List.prefix_append _ _).trans hr
      have hpa : Ev.pause ∉ a := fun h => hp (by simp [h])
      obtain ⟨hH, hN⟩ := ih (fun x hx => he x (by simp [hx])) hpa (fun h => hc (by simp [h])) hr'
      have hS := sendOk_run tcp a
      obtain ⟨H, W, rest, hR⟩ := rinv_run tcp a hpa
      rw [hrun] at hS hR
      obtain ⟨t, ht⟩ := hr'
      obtain ⟨x, y⟩ := hinv_step e hH hS hR (he e (by simp)) (fun h => hp (by simp [h]))
        (fun h => hc (by simp [h])) ht hw hmax
      refine ⟨x, ?_⟩
      constructor
      · intro hm
        rcases List.mem_append.1 hm with hm | hm
        · exact hN.1 hm
        · exact y.1 hm
      · intro hm
        rcases List.mem_append.1 hm with hm | hm
        · exact hN.2 hm
        · exact y.2 hm) evs
  exact this he hp hc hr

/-! ### After `close` -/

structure Silent (s : St) : Prop where
  state : s.state = .closed
  resolve : s.resolve = none
  connect : ∀ r, s.connect = some r → r = .aborted
  timer : ∀ r, s.timer = some r → r = .aborted
  write : ∀ w, s.write = some w → w.res = .aborted
  recvs : ∀ r ∈ s.recvs, r.res = .aborted

theorem cancel_quiet {r : Res} (h : r = .pending ∨ r = .aborted) : r.cancel = .aborted := by
  rcases h with rfl | rfl <;> rfl

theorem silent_close {s : St} (h : Quiet s) (hi : s.impl = true) : Silent (close s).1 := by
  obtain ⟨h1, h2, h3, h4, h5⟩ := h
  unfold close
  rw [if_pos hi]
  refine { state := rfl, resolve := h1, connect := ?_, timer := ?_, write := ?_, recvs := ?_ }
  · intro r hr
    simp only [closeImpl, cancelSocket, Option.map_eq_some_iff] at hr
    obtain ⟨x, hx, rfl⟩ := hr
    exact cancel_quiet (h2 x hx)
  · intro r hr
    simp only [closeImpl, cancelSocket, Option.map_eq_some_iff] at hr
    obtain ⟨x, hx, rfl⟩ := hr
    exact cancel_quiet (h3 x hx)
  · intro r hr
    simp only [closeImpl, cancelSocket, Option.map_eq_some_iff] at hr
    obtain ⟨x, hx, rfl⟩ := hr
    exact cancel_quiet (h4 x hx)
  · intro r hr
    simp only [closeImpl, cancelSocket, List.mem_map] at hr
    obtain ⟨x, hx, rfl⟩ := hr
    exact cancel_quiet (h5 x hx)

theorem fill_none {rs : List RecvOp} (h : ∀ r ∈ rs, r.res ≠ .pending) (n : Nat) :
    fill rs n = none := by
  induction rs with
  | nil => rfl
  | cons r rs ih =>
    simp only [fill, if_neg (h r (by simp)), ih (fun x hx => h x (by simp [hx])), Option.map_none]

theorem failRecv_same {rs : List RecvOp} (h : ∀ r ∈ rs, r.res ≠ .pending) : failRecv rs = rs := by
  induction rs with
  | nil => rfl
  | cons r rs ih =>
    simp only [failRecv, if_neg (h r (by simp)), ih (fun x hx => h x (by simp [hx]))]

theorem silent_step {s : St} {e : Ev} (h : Silent s) (he : Env e) :
    Silent (step s e).1 ∧ (step s e).2 = [] := by
  by_cases hd : s.dead = true
  · have : step s e = (s, []) := by simp [step, hd]
    rw [this]; exact ⟨h, rfl⟩
  rw [show step s e = act s e by simp [step, hd]]
  have same : Silent s ∧ ([] : List Out) = [] := ⟨h, rfl⟩
  have hrp : ∀ r ∈ s.recvs, r.res ≠ .pending := by
    intro r hr hk
    rw [h.recvs r hr] at hk; cases hk
  cases e with
  | send b => exact absurd he id
  | pause => exact absurd he id
  | resume => exact absurd he id
  | close => exact absurd he id
  | resolved k => simp [act, h.resolve]; exact h
  | connected k =>
    simp only [act]
    split
    · rename_i hc; have := h.connect _ hc; cases this
    · exact same
  | timerFires =>
    simp only [act]
    split
    · rename_i hc; have := h.timer _ hc; cases this
    · exact same
  | written n =>
    simp only [act]
    split
    · exact same
    · rename_i w hw
      split
      · rename_i hk; rw [h.write w hw] at hk; cases hk.1
      · exact same
  | writeFails =>
    simp only [act]
    split
    · exact same
    · rename_i w hw
      split
      · rename_i hk; rw [h.write w hw] at hk; cases hk
      · exact same
  | readable bs =>
    simp only [act, fill_none hrp]
    exact ⟨h, trivial⟩
  | readFails =>
    simp only [act]
    refine ⟨⟨h.state, h.resolve, h.connect, h.timer, h.write, ?_⟩, trivial⟩
    show ∀ r ∈ failRecv s.recvs, _
    rw [failRecv_same hrp]; exact h.recvs
  | hResolve => simp only [act, h.resolve]; exact ⟨h, trivial⟩
  | hConnect =>
    simp only [act]
    split
    · exact same
    · rename_i r hr
      have := h.connect r hr
      subst this
      refine ⟨⟨h.state, h.resolve, by simp [connectHandler], ?_, h.write, h.recvs⟩, rfl⟩
      intro r hr
      simp only [connectHandler, reduceCtorEq, if_false, Option.map_eq_some_iff] at hr
      obtain ⟨x, hx, rfl⟩ := hr
      rw [h.timer x hx]; rfl
  | hTimer =>
    simp only [act]
    split
    · exact same
    · rename_i r hr
      have := h.timer r hr
      subst this
      exact ⟨⟨h.state, h.resolve, h.connect, by simp [timerHandler], h.write, h.recvs⟩, rfl⟩
  | hWrite =>
    simp only [act]
    split
    · exact same
    · rename_i w hw
      have := h.write w hw
      simp only [this, writeHandler, reduceCtorEq, if_false]
      exact ⟨⟨h.state, h.resolve, h.connect, h.timer, by simp, h.recvs⟩, trivial⟩
  | hRecv i =>
    simp only [act]
    split
    · exact same
    · rename_i r hr
      have := h.recvs r (List.mem_of_getElem? hr)
      simp only [this, recvHandler, reduceCtorEq, if_false]
      exact ⟨⟨h.state, h.resolve, h.connect, h.timer, h.write,
        fun x hx => h.recvs x (List.mem_of_mem_eraseIdx hx)⟩, trivial⟩

theorem silent_run {s : St} (evs : List Ev) (h : Silent s) (he : ∀ e ∈ evs, Env e) :
    (run s evs).2 = [] ∧ (run s evs).1.state = .closed := by
  induction evs generalizing s with
  | nil => exact ⟨rfl, h.state⟩
  | cons e es ih =>
    obtain ⟨h1, h2⟩ := silent_step h (he e (by simp))
    obtain ⟨i1, i2⟩ := ih h1 (fun x hx => he x (by simp [hx]))
    simp only [run, h2, i1, List.nil_append]
    exact ⟨trivial, i2⟩

/-! ### After `pause` -/

/-- Nothing can be received: all receive operations are aborted and none will be started. -/
structure Deaf (s : St) : Prop where
  state : s.state = .paused ∨ s.state = .closed
  resolve : s.resolve = none
  connect : s.connect = none
  recvs : ∀ r ∈ s.recvs, r.res = .aborted

theorem deaf_close {s : St} (h : Deaf s) : Deaf (close s).1 ∧ deliveries (close s).2 = [] := by
  refine ⟨?_, (close_outs s).2.1⟩
  unfold close
  split
  · refine ⟨.inr rfl, h.resolve, by simp [closeImpl, cancelSocket, h.connect], ?_⟩
    intro r hr
    simp only [closeImpl, cancelSocket, List.mem_map] at hr
    obtain ⟨x, hx, rfl⟩ := hr
    exact cancel_quiet (.inr (h.recvs x hx))
  · exact ⟨h.state, h.resolve, h.connect, h.recvs⟩

theorem deaf_closeThrow {s : St} (h : Deaf s) :
    Deaf (closeThrow s).1 ∧ deliveries (closeThrow s).2 = [] := by
  refine ⟨?_, (closeThrow_outs s).2.1⟩
  unfold closeThrow
  split <;> exact (deaf_close h).1

theorem deaf_asyncWrite {s : St} (h : Deaf s) :
    Deaf (asyncWrite s).1 ∧ deliveries (asyncWrite s).2 = [] := by
  refine ⟨?_, (asyncWrite_outs s).2.1⟩
  unfold asyncWrite
  split <;> exact ⟨h.state, h.resolve, h.connect, h.recvs⟩

theorem deaf_step {s : St} {e : Ev} (h : Deaf s) (he : e ≠ .resume) :
    Deaf (step s e).1 ∧ deliveries (step s e).2 = [] := by
  by_cases hd : s.dead = true
  · have : step s e = (s, []) := by simp [step, hd]
    rw [this]; exact ⟨h, rfl⟩
  rw [show step s e = act s e by simp [step, hd]]
  have same : Deaf s ∧ deliveries [] = [] := ⟨h, rfl⟩
  have hrp : ∀ r ∈ s.recvs, r.res ≠ .pending := by
    intro r hr hk
    rw [h.recvs r hr] at hk; cases hk
  cases e with
  | send b =>
    simp only [act, send]
    have h' : Deaf { s with queue := s.queue ++ [b] } := ⟨h.state, h.resolve, h.connect, h.recvs⟩
    split
    · split
      · exact deaf_asyncWrite h'
      · exact ⟨h', rfl⟩
    · exact ⟨⟨h.state, h.resolve, h.connect, h.recvs⟩, rfl⟩
  | pause =>
    simp only [act, pause]
    refine ⟨?_, rfl⟩
    split
    · split
      · rename_i hr
        rcases h.state with hs | hs <;> rw [hs] at hr <;> cases hr
      · exact h
    · exact h
  | resume => exact absurd rfl he
  | close => exact deaf_close h
  | resolved k => simp [act, h.resolve]; exact ⟨h, rfl⟩
  | connected k => simp [act, h.connect]; exact ⟨h, rfl⟩
  | timerFires =>
    simp only [act]
    split
    · exact ⟨⟨h.state, h.resolve, h.connect, h.recvs⟩, rfl⟩
    · exact same
  | written n =>
    simp only [act]
    split
    · exact same
    · split
      · exact ⟨⟨h.state, h.resolve, h.connect, h.recvs⟩, rfl⟩
      · exact same
  | writeFails =>
    simp only [act]
    split
    · exact same
    · split
      · exact ⟨⟨h.state, h.resolve, h.connect, h.recvs⟩, rfl⟩
      · exact same
  | readable bs =>
    simp only [act, fill_none hrp]
    exact same
  | readFails =>
    simp only [act]
    refine ⟨⟨h.state, h.resolve, h.connect, ?_⟩, rfl⟩
    show ∀ r ∈ failRecv s.recvs, _
    rw [failRecv_same hrp]; exact h.recvs
  | hResolve => simp only [act, h.resolve]; exact same
  | hConnect => simp only [act, h.connect]; exact same
  | hTimer =>
    simp only [act]
    split
    · exact same
    · rename_i r hr
      split
      · exact same
      · have h' : Deaf { s with timer := none } := ⟨h.state, h.resolve, h.connect, h.recvs⟩
        cases r with
        | pending => exact ⟨h', rfl⟩
        | aborted => exact ⟨h', rfl⟩
        | failed => exact ⟨h', rfl⟩
        | ok => exact deaf_closeThrow h'
  | hWrite =>
    simp only [act]
    split
    · exact same
    · rename_i w hw
      split
      · exact same
      · have h' : Deaf { s with write := none } := ⟨h.state, h.resolve, h.connect, h.recvs⟩
        cases w.res with
        | pending => exact ⟨h', rfl⟩
        | aborted => exact ⟨h', rfl⟩
        | failed => exact deaf_closeThrow h'
        | ok =>
          simp only [writeHandler]
          split
          · exact ⟨h', rfl⟩
          · split
            · exact ⟨⟨h.state, h.resolve, h.connect, h.recvs⟩, rfl⟩
            · rename_i q _
              have h2 : Deaf { s with write := none, queue := q } :=
                ⟨h.state, h.resolve, h.connect, h.recvs⟩
              split
              · exact ⟨h2, rfl⟩
              · exact deaf_asyncWrite h2
  | hRecv i =>
    simp only [act]
    split
    · exact same
    · rename_i r hr
      have := h.recvs r (List.mem_of_getElem? hr)
      simp only [this, recvHandler, reduceCtorEq, if_false]
      exact ⟨⟨h.state, h.resolve, h.connect,
        fun x hx => h.recvs x (List.mem_of_mem_eraseIdx hx)⟩, rfl⟩

theorem deaf_run {s : St} (evs : List Ev) (h : Deaf s) (he : Ev.resume ∉ evs) :
    deliveries (run s evs).2 = [] := by
  induction evs generalizing s with
  | nil => rfl
  | cons e es ih =>
    obtain ⟨h1, h2⟩ := deaf_step (e := e) h (fun x => he (by simp [x]))
    simp only [run, deliveries_append, h2, List.nil_append]
    exact ih h1 (fun x => he (by simp [x]))

end Ndn.Transport
