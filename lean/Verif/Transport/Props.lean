import Verif.Transport.QuietLemmas

/-! C66, C67, C84: the stream transports. -/

namespace Ndn.Transport
open Block Block.Spec Spec

/-! ### C66: re-framing -/

/-- **C66.** The full claim: whatever the calls and completions, what the receive callback gets are
the elements, in order, of the octets the peer sent, as far as they have been processed. -/
def C66_claim : Prop :=
  ∀ (tcp : Bool) (evs : List Ev), ∃ handled rest,
    handled <+: reads (run (init tcp) evs).2 ∧
      Frames handled (deliveries (run (init tcp) evs).2) rest

/-- **C66.** The division of octets into elements is unique, so `Frames` says exactly what must be
delivered. -/
theorem C66_unique {bs rest rest' : Bytes} {es es' : List Raw} (h : Frames bs es rest)
    (h' : Frames bs es' rest') : es = es' ∧ rest = rest' := frames_unique h h'

/-- **C66, as long as the transport is not paused.** However the stream is divided into reads and
whatever else happens: the elements delivered are exactly the elements of the octets processed so
far; those are all octets read, but for the ones of a completed read whose handler has not run. -/
theorem C66_framing_partial (tcp : Bool) (evs : List Ev) (hp : Ev.pause ∉ evs) :
    ∃ handled waiting rest, reads (run (init tcp) evs).2 = handled ++ waiting ∧
      Frames handled (deliveries (run (init tcp) evs).2) rest ∧
      ((∀ r ∈ (run (init tcp) evs).1.recvs, r.res ≠ .ok) → waiting = []) := by
  obtain ⟨H, W, rest, h⟩ := rinv_run tcp evs hp
  refine ⟨H, W, rest, h.split, h.frames, ?_⟩
  intro hk
  rcases h.ops with ⟨-, h2⟩ | ⟨r, h1, -, -, -, -, -, h7⟩
  · exact h2
  · exact h7 (hk r (by rw [h1]; simp))

/-- Packets a peer sends: TLV elements of at most 8800 octets. -/
def Packets (ps : List Raw) : Prop :=
  ∀ p ∈ ps, TlvForm p.wire p.type p.value ∧ p.wire.length ≤ 8800

/-- **C66.** If the octets read are the beginning of a sequence of packets, however divided, the
callback got the first packets of the sequence, in order and each once; what was processed beyond
them is less than the next packet. -/
theorem C66_packets_partial (tcp : Bool) (evs : List Ev) (hp : Ev.pause ∉ evs) (ps : List Raw)
    (hps : Packets ps)
    (hr : reads (run (init tcp) evs).2 <+: (ps.map Raw.wire).flatten) :
    ∃ missing waiting rest, ps = deliveries (run (init tcp) evs).2 ++ missing ∧
      reads (run (init tcp) evs).2 =
        ((deliveries (run (init tcp) evs).2).map Raw.wire).flatten ++ rest ++ waiting ∧
      (∀ q qs, missing = q :: qs → rest.length < q.wire.length) ∧ (missing = [] → rest = []) ∧
      ((∀ r ∈ (run (init tcp) evs).1.recvs, r.res ≠ .ok) → waiting = []) := by
  obtain ⟨H, W, rest, h1, h2, h3⟩ := C66_framing_partial tcp evs hp
  obtain ⟨t, ht⟩ := hr
  obtain ⟨qs, q1, q2, q3⟩ := frames_packets (H := H) (t := W ++ t) h2
    (by rw [← List.append_assoc, ← h1, ht]) (fun p hp => (hps p hp).1)
  exact ⟨qs, W, rest, q1, by rw [h1, ← h2.1], q3, q2, h3⟩

/-- **C66.** When all octets of the packets have been read and processed, exactly the packets have
been delivered. -/
theorem C66_all_partial (tcp : Bool) (evs : List Ev) (hp : Ev.pause ∉ evs) (ps : List Raw)
    (hps : Packets ps) (hr : reads (run (init tcp) evs).2 = (ps.map Raw.wire).flatten)
    (hd : ∀ r ∈ (run (init tcp) evs).1.recvs, r.res ≠ .ok) :
    deliveries (run (init tcp) evs).2 = ps := by
  obtain ⟨missing, waiting, rest, h1, h2, h3, h4, h5⟩ :=
    C66_packets_partial tcp evs hp ps hps (by rw [hr]; exact List.prefix_refl _)
  have hw := h5 hd
  cases missing with
  | nil => rw [h1]; simp
  | cons q qs =>
    exfalso
    have hl := h3 q qs rfl
    rw [hr, hw] at h2
    have h6 := congrArg (fun l => (List.map Raw.wire l).flatten.length) h1
    have h7 := congrArg List.length h2
    simp only [List.length_append, List.length_nil, List.map_append, List.map_cons,
      List.flatten_append, List.flatten_cons] at h6 h7
    omega

/-- **C66.** With a network that works and a peer that sends packets of at most 8800 octets, the
transport never reports an error, never reaches undefined behaviour, stays open, and while it is
running a receive operation is in progress. -/
theorem C66_no_error_partial (tcp : Bool) (evs : List Ev) (he : ∀ e ∈ evs, Healthy e)
    (hp : Ev.pause ∉ evs) (hc : Ev.close ∉ evs) (ps : List Raw) (hps : Packets ps)
    (hr : reads (run (init tcp) evs).2 <+: (ps.map Raw.wire).flatten) :
    Out.threw ∉ (run (init tcp) evs).2 ∧ Out.ub ∉ (run (init tcp) evs).2 ∧
      (run (init tcp) evs).1.state ≠ .closed ∧
      ((run (init tcp) evs).1.state = .running →
        ∃ r, (run (init tcp) evs).1.recvs = [r] ∧ (r.res = .pending ∨ r.res = .ok)) := by
  obtain ⟨h, n1, n2⟩ := hinv_run tcp evs he hp hc ps (fun p hp => (hps p hp).1)
    (fun p hp => (hps p hp).2) hr
  obtain ⟨_, _, hS⟩ := (sendOk_live h.alive h.impl).1 (sendOk_run tcp evs)
  obtain ⟨_, _, _, hR⟩ := rinv_run tcp evs hp
  refine ⟨n1, n2, hS.open', ?_⟩
  intro hrun
  rcases hR.ops with ⟨h1, -⟩ | ⟨r, h1, -⟩
  · exact absurd h1 (h.running hrun)
  · exact ⟨r, h1, h.recvs r (by rw [h1]; simp)⟩

/-- Connected, receiving; two packets arrive in three reads cut at odd places. -/
def cutRun : List Ev :=
  [.connected true, .hConnect, .resume, .readable [5], .hRecv 0, .readable [2, 7, 0, 6], .hRecv 0,
   .readable [0], .hRecv 0]

def twoPackets : List Raw := [⟨5, [5, 2, 7, 0], [7, 0]⟩, ⟨6, [6, 0], []⟩]

theorem twoPackets_ok : Packets twoPackets := by
  have h : ∀ p ∈ twoPackets, fromBuffer p.wire = some (p, []) ∧ p.wire.length ≤ 8800 := by
    decide +kernel
  intro p hp
  exact ⟨(fromBuffer_iff.1 (h p hp).1).2, (h p hp).2⟩

example : deliveries (run (init false) cutRun).2 = twoPackets ∧
    reads (run (init false) cutRun).2 = (twoPackets.map Raw.wire).flatten ∧
    (∀ e ∈ cutRun, e ≠ .pause ∧ e ≠ .close) ∧
    (run (init false) cutRun).1.recvs = [⟨0, .pending, 0⟩] := by decide +kernel

example : ∀ e ∈ cutRun, Healthy e := by simp [cutRun, Healthy]

/-- **C66.** When the octets read end with 8800 octets that do not begin with a complete element,
the handler of the last read closes the transport and reports an error (it does not wait for ever
and does not deliver anything else). -/
theorem C66_oversize_partial (tcp : Bool) (evs : List Ev) (hp : Ev.pause ∉ evs) {es : List Raw}
    {rest : Bytes} (hf : Frames (reads (run (init tcp) evs).2) es rest) (hl : rest.length = 8800)
    (hd : (run (init tcp) evs).1.dead = false) (hi : (run (init tcp) evs).1.impl = true)
    (hw : ∃ r, (run (init tcp) evs).1.recvs = [r] ∧ r.res = .ok) :
    (step (run (init tcp) evs).1 (.hRecv 0)).1.state = .closed ∧
      ∃ es', (step (run (init tcp) evs).1 (.hRecv 0)).2 = es'.map Out.deliver ++ [.threw] ∧
        es = deliveries (run (init tcp) evs).2 ++ es' := by
  obtain ⟨H, W, rest', h⟩ := rinv_run tcp evs hp
  generalize (run (init tcp) evs).1 = s at *
  generalize (run (init tcp) evs).2 = log at *
  obtain ⟨r, hr, hk⟩ := hw
  rcases h.ops with ⟨h1, -⟩ | ⟨r', h1, h2, h3, h4, h5, h6, h7⟩
  · rw [hr] at h1; cases h1
  have : r' = r := by rw [hr] at h1; simpa using h1.symm
  subst this
  obtain ⟨k1, k2, k3, k4⟩ := h5 hk
  have hfr := frames_append h.frames
    (extract_frames (rest' ++ W).length (rest' ++ W) (Nat.le_refl _))
  rw [← h.split] at hfr
  obtain ⟨u1, u2⟩ := frames_unique hf hfr
  have hx := extract_length (rest' ++ W).length (rest' ++ W)
  rw [← u2, hl, List.length_append] at hx
  have hlen : rest.length = (rest' ++ W).length := by
    rw [hl, List.length_append]; unfold maxPacket at k3; omega
  have hav : s.rx.take (s.rxSize + W.length) = rest' ++ W := by rw [h3]; exact k4
  rw [show step s (.hRecv 0) = act s (.hRecv 0) by simp [step, hd]]
  simp only [act, hr, List.getElem?_cons_zero, hk, reduceCtorEq, if_false, recvHandler, k2]
  rw [if_neg (by omega)]
  simp only [hav, ← u2]
  rw [if_neg (by intro e; have : rest = [] := by simpa using e
                 rw [this] at hl; simp at hl),
    if_neg (by rw [hlen]; simp), if_pos (by rw [hl]; rfl)]
  refine ⟨by simp [closeThrow, close, hi, closeImpl], _, ?_, u1⟩
  simp [closeThrow, hi]

/-- 8800 octets none of which completes the element they begin (type 5, length 65535). -/
def bigRun (tail : Bytes) : List Ev :=
  [.connected true, .hConnect, .resume, .readable (5 :: 253 :: 255 :: 255 :: tail)]

theorem big_none (tail : Bytes) (h : tail.length = 8796) :
    fromBuffer (5 :: 253 :: 255 :: 255 :: tail) = none := by
  simp [fromBuffer, Tlv.readType, Tlv.readVarNumber, Tlv.readNumber, Tlv.beNat, h]

theorem big_run (bs : Bytes) (h : bs ≠ []) (hl : bs.length = 8800) :
    (run (init false) [.connected true, .hConnect, .resume, .readable bs]).2 = [.got bs] ∧
    (run (init false) [.connected true, .hConnect, .resume, .readable bs]).1.recvs =
      [⟨0, .ok, bs.length⟩] := by
  have hm : bs.length ≤ maxPacket := by rw [hl]; exact Nat.le_refl _
  simp [run, step, act, init, connectHandler, resume, resumeImpl, asyncReceive, fill, h, hm]

example (tail : Bytes) (h : tail.length = 8796) :
    Frames (reads (run (init false) (bigRun tail)).2) [] (5 :: 253 :: 255 :: 255 :: tail) ∧
    (5 :: 253 :: 255 :: 255 :: tail).length = 8800 ∧
    ∃ r, (run (init false) (bigRun tail)).1.recvs = [r] ∧ r.res = .ok := by
  have hl : (5 :: 253 :: 255 :: 255 :: tail).length = 8800 := by
    simp only [List.length_cons, h]
  obtain ⟨h1, h2⟩ := big_run (5 :: 253 :: 255 :: 255 :: tail) (by simp) hl
  refine ⟨?_, hl, _, h2, rfl⟩
  unfold bigRun
  rw [h1]
  exact ⟨by simp [reads], by simp, no_tlv (big_none _ h)⟩

/-- **C66 fails.** `resume` empties the receive buffer: a packet of which a part had arrived before
`pause` is lost, and the octets that follow are cut at the wrong place (here the last two octets of
a packet of type 5 are delivered as an element of type 8). -/
def lostRun : List Ev :=
  [.connected true, .hConnect, .resume, .readable [5, 2], .hRecv 0, .pause, .hRecv 0, .resume,
   .readable [8, 0], .hRecv 0]

/-- A packet received in part before `pause` is lost by `resume`. -/
theorem C66_counterexample : ¬ C66_claim := by
  intro h
  obtain ⟨handled, rest, h1, h2⟩ := h false lostRun
  have e : reads (run (init false) lostRun).2 = [5, 2, 8, 0] ∧
      deliveries (run (init false) lostRun).2 = [⟨8, [8, 0], []⟩] := by decide +kernel
  rw [e.1] at h1
  rw [e.2] at h2
  obtain ⟨t, ht⟩ := h1
  have := h2.1
  rw [this] at ht
  simp at ht

/-- A second failure, without any divided packet: a read that has completed before `pause` starts
another read although the transport is paused, `resume` starts one more, and the two reads share
one buffer: the packet `[7, 0]` is lost and the packet `[6, 0]` is delivered twice. -/
def doubleRun : List Ev :=
  [.connected true, .hConnect, .resume, .readable [5, 0], .pause, .hRecv 0, .resume,
   .readable [7, 0], .readable [6, 0], .hRecv 0, .hRecv 0]

theorem C66_double_read :
    reads (run (init false) doubleRun).2 = [5, 0, 7, 0, 6, 0] ∧
      deliveries (run (init false) doubleRun).2 =
        [⟨5, [5, 0], []⟩, ⟨6, [6, 0], []⟩, ⟨6, [6, 0], []⟩] := by decide +kernel

/-! ### C67: sending -/

/-- **C67.** What goes into the socket is always a beginning of the packets passed to `send`, one
after the other: in order, no octet missing, none twice, none invented. For every history. -/
theorem C67_order (tcp : Bool) (evs : List Ev) :
    wires (run (init tcp) evs).2 <+: (sends evs).flatten :=
  (sendOk_run tcp evs).prefix

/-- **C67.** The full claim about progress: while the transport is connected and no write has
failed, the operating system only has to accept octets for all packets passed to `send` to go
out. -/
def C67_claim : Prop :=
  ∀ (tcp : Bool) (evs : List Ev), (∀ e ∈ evs, Healthy e) → (∀ b ∈ sends evs, b ≠ []) →
    Ev.close ∉ evs → (run (init tcp) evs).1.state = .running →
    ∃ es : List Ev, wires (run (init tcp) (evs ++ es)).2 = (sends evs).flatten

/-- **C67, when `pause` is called only when nothing is waiting to be sent.** From any such history,
while the transport is open and connected and the write in progress has not failed, accepting octets
and running the write handlers makes everything go out. -/
theorem C67_progress_partial (tcp : Bool) (evs : List Ev) (hp : PauseIdle tcp evs)
    (hb : ∀ b ∈ sends evs, b ≠ [])
    (hdead : (run (init tcp) evs).1.dead = false)
    (hi : (run (init tcp) evs).1.impl = true)
    (hc : (run (init tcp) evs).1.state = .running ∨ (run (init tcp) evs).1.state = .paused)
    (hf : ∀ w, (run (init tcp) evs).1.write = some w → w.res ≠ .failed) :
    ∃ es : List Ev, (∀ e ∈ es, ∃ n, e = .written n ∨ e = .hWrite) ∧
      wires (run (init tcp) (evs ++ es)).2 = (sends evs).flatten := by
  have hL : LInv (run (init tcp) evs).1 := by
    rcases live_run tcp evs hp hb with h | h | h
    · rw [hdead] at h; cases h
    · rw [hi] at h; cases h
    · exact h
  obtain ⟨es, h1, h2⟩ := drain (sendOk_run tcp evs) hdead hi hL
    (by intro e; rcases hc with hc | hc <;> rw [hc] at e <;> cases e) hf
  refine ⟨es, h1, ?_⟩
  rw [run_append]
  simpa [wires_append] using h2

/-- Packets queued while connecting, one pause when everything is out, more packets after. -/
def sendRun : List Ev :=
  [.send [5, 0], .send [6, 0], .connected true, .hConnect, .written 1, .written 1, .hWrite,
   .written 2, .hWrite, .pause, .hRecv 0, .send [7, 0], .written 1]

example : wires (run (init false) sendRun).2 = [5, 0, 6, 0, 7] ∧
    (run (init false) sendRun).1.state = .paused ∧
    (run (init false) sendRun).1.write = some ⟨[0], .pending⟩ := by decide +kernel

example : PauseIdle false sendRun := by
  intro a b h
  have h' : ∀ i : Nat, i < 13 → sendRun[i]? = some .pause →
      wires (run (init false) (sendRun.take i)).2 = (sends (sendRun.take i)).flatten := by
    decide +kernel
  have hl : a.length < 13 := by
    have := congrArg List.length h
    simp [sendRun] at this; omega
  have := h' a.length hl (by rw [h]; simp)
  rwa [h, List.take_left] at this

/-- **C67 fails.** `pause` while a packet is being written cancels the write; its handler returns
without taking the packet off the queue, and neither `resume` nor a later `send` (which sees a
queue that is not empty) starts a write again. -/
def stallRun : List Ev :=
  [.connected true, .hConnect, .resume, .send [5, 2, 7, 0], .written 1, .pause, .hWrite, .hRecv 0,
   .resume]

/-- From then on nothing is ever written, whatever the application does and whatever happens. -/
theorem C67_stall_forever (evs : List Ev) :
    wires (run (init false) (stallRun ++ evs)).2 = [5] := by
  have h1 : Stalled (run (init false) stallRun).1 := by
    have : (run (init false) stallRun).1.write = none ∧ (run (init false) stallRun).1.connect = none ∧
      (run (init false) stallRun).1.resolve = none ∧
      (run (init false) stallRun).1.queue = [[5, 2, 7, 0]] := by decide +kernel
    exact ⟨this.1, this.2.1, this.2.2.1, .inr (.inr (by rw [this.2.2.2]; simp))⟩
  have h2 : wires (run (init false) stallRun).2 = [5] := by decide +kernel
  rw [run_append, wires_append, stalled_run evs h1, h2]
  rfl

/-- After `pause` during a write nothing is sent any more. -/
theorem C67_counterexample : ¬ C67_claim := by
  intro h
  obtain ⟨es, he⟩ := h false stallRun (by simp [stallRun, Healthy])
    (by simp [stallRun, sends]) (by simp [stallRun]) (by decide +kernel)
  rw [C67_stall_forever] at he
  have : (sends stallRun).flatten = [5, 2, 7, 0] := by decide
  rw [this] at he
  cases he

/-! ### C84: `close` and `pause` take effect -/

/-- **C84.** The full claim for `close`: once it has returned nothing is delivered, written or
thrown, no undefined behaviour follows, and the transport stays closed (until the application calls
it again). -/
def C84_close_claim : Prop :=
  ∀ (tcp : Bool) (evs after : List Ev), (run (init tcp) evs).1.dead = false →
    (run (init tcp) evs).1.impl = true → (∀ e ∈ after, Env e) →
    (run (step (run (init tcp) evs).1 .close).1 after).2 = [] ∧
      (run (step (run (init tcp) evs).1 .close).1 after).1.state = .closed

/-- **C84, when no completed operation is waiting for its handler and no name is being resolved.** -/
theorem C84_close_partial (s : St) (after : List Ev) (hd : s.dead = false) (hi : s.impl = true)
    (hq : Quiet s) (ha : ∀ e ∈ after, Env e) :
    (step s .close).2 = [] ∧ (run (step s .close).1 after).2 = [] ∧
      (run (step s .close).1 after).1.state = .closed := by
  have e : step s .close = close s := by simp [step, hd, act]
  rw [e]
  obtain ⟨h1, h2⟩ := silent_run after (silent_close hq hi) ha
  exact ⟨by simp [close, hi], h1, h2⟩

example : Quiet (run (init false) [.connected true, .hConnect, .hTimer, .resume, .send [5, 0]]).1 ∧
    (run (init false) [.connected true, .hConnect, .hTimer, .resume, .send [5, 0]]).1.impl = true := by
  have h : (run (init false) [.connected true, .hConnect, .hTimer, .resume, .send [5, 0]]).1.resolve = none ∧
      (run (init false) [.connected true, .hConnect, .hTimer, .resume, .send [5, 0]]).1.connect = none ∧
      (run (init false) [.connected true, .hConnect, .hTimer, .resume, .send [5, 0]]).1.timer = none ∧
      (run (init false) [.connected true, .hConnect, .hTimer, .resume, .send [5, 0]]).1.write =
        some ⟨[5, 0], .pending⟩ ∧
      (run (init false) [.connected true, .hConnect, .hTimer, .resume, .send [5, 0]]).1.recvs =
        [⟨0, .pending, 0⟩] ∧
      (run (init false) [.connected true, .hConnect, .hTimer, .resume, .send [5, 0]]).1.impl = true := by
    decide +kernel
  obtain ⟨h1, h2, h3, h4, h5, h6⟩ := h
  refine ⟨⟨h1, ?_, ?_, ?_, ?_⟩, h6⟩
  · intro r hr; rw [h2] at hr; cases hr
  · intro r hr; rw [h3] at hr; cases hr
  · intro w hw; rw [h4] at hw; simp at hw; rw [← hw]; exact .inl rfl
  · intro r hr; rw [h5] at hr; simp at hr; rw [hr]; exact .inl rfl

/-- **C84 fails.** A read that completed before `close` still delivers its elements after it, then
starts a read on the closed socket, whose error makes the handler close the transport again, through
a null pointer. -/
theorem C84_close_read : (run (step (run (init false)
      [.connected true, .hConnect, .resume, .readable [5, 0]]).1 .close).1
      [.hRecv 0, .hRecv 0]).2 = [.deliver ⟨5, [5, 0], []⟩, .ub] := by decide +kernel

/-- `close` while the host name is being resolved does not stop the connection: the resolver's
handler connects the closed socket, and the transport ends in state PAUSED. -/
theorem C84_close_resolving : (run (step (run (init true) []).1 .close).1
      [.resolved true, .hResolve, .connected true, .hConnect]).1.state = .paused := by decide +kernel

/-- `close` when the connection is established but its handler has not run: the same. -/
theorem C84_close_connected : (run (step (run (init false) [.connected true]).1 .close).1
      [.hConnect]).1.state = .paused := by decide +kernel

/-- A read that completed before `close` is still delivered after it, and dereferences a null pointer. -/
theorem C84_close_counterexample : ¬ C84_close_claim := by
  intro h
  have := (h false [.connected true, .hConnect, .resume, .readable [5, 0]] [.hRecv 0, .hRecv 0]
    (by decide +kernel) (by decide +kernel) (by simp [Env])).1
  rw [C84_close_read] at this
  cases this

/-- **C84.** The full claim for `pause` (transport.hpp, "the receive callback will not be invoked"):
after `pause`, until `resume`, nothing is delivered. -/
def C84_pause_claim : Prop :=
  ∀ (tcp : Bool) (evs after : List Ev), (run (init tcp) evs).1.state = .running →
    Ev.resume ∉ after →
    deliveries (run (step (run (init tcp) evs).1 .pause).1 after).2 = []

/-- **C84, when no completed read is waiting for its handler.** Whatever follows, but `resume`. -/
theorem C84_pause_partial (tcp : Bool) (evs after : List Ev)
    (hr : (run (init tcp) evs).1.state = .running) (hd : (run (init tcp) evs).1.dead = false)
    (hi : (run (init tcp) evs).1.impl = true)
    (hq : ∀ r ∈ (run (init tcp) evs).1.recvs, r.res = .pending ∨ r.res = .aborted)
    (ha : Ev.resume ∉ after) :
    (step (run (init tcp) evs).1 .pause).1.state = .paused ∧
      deliveries (run (step (run (init tcp) evs).1 .pause).1 after).2 = [] := by
  have e : step (run (init tcp) evs).1 .pause =
      ({ cancelSocket (run (init tcp) evs).1 with state := .paused }, []) := by
    simp [step, hd, act, pause, hi, hr]
  obtain ⟨_, _, hS⟩ := (sendOk_live hd hi).1 (sendOk_run tcp evs)
  have hcn : ¬ ((run (init tcp) evs).1.connect ≠ none ∨ (run (init tcp) evs).1.resolve ≠ none) := by
    intro e
    have := (hS.conn (.inr e)).1
    rw [hr] at this; cases this
  have c1 : (run (init tcp) evs).1.connect = none := Classical.byContradiction fun e => hcn (.inl e)
  have c2 : (run (init tcp) evs).1.resolve = none := Classical.byContradiction fun e => hcn (.inr e)
  rw [e]
  refine ⟨rfl, deaf_run after ⟨.inl rfl, c2, by simp [cancelSocket, c1], ?_⟩ ha⟩
  intro r hr
  simp only [cancelSocket, List.mem_map] at hr
  obtain ⟨x, hx, rfl⟩ := hr
  exact cancel_quiet (hq x hx)

example : (run (init false) [.connected true, .hConnect, .resume]).1.state = .running ∧
    (run (init false) [.connected true, .hConnect, .resume]).1.recvs = [⟨0, .pending, 0⟩] := by
  decide +kernel

/-- **C84 fails.** A read that completed before `pause` is delivered after it. -/
theorem C84_pause_counterexample : ¬ C84_pause_claim := by
  intro h
  have := h false [.connected true, .hConnect, .resume, .readable [5, 0]] [.hRecv 0]
    (by decide +kernel) (by simp)
  have e : deliveries (run (step (run (init false)
      [.connected true, .hConnect, .resume, .readable [5, 0]]).1 .pause).1 [.hRecv 0]).2 =
      [⟨5, [5, 0], []⟩] := by decide +kernel
  rw [e] at this; cases this

/-- **C84.** `resume` of a connected, paused transport starts receiving (in every reachable state:
the socket is open). -/
theorem C84_resume (tcp : Bool) (evs : List Ev) (hp : PauseIdle tcp evs)
    (hb : ∀ b ∈ sends evs, b ≠ []) (hs : (run (init tcp) evs).1.state = .paused)
    (hd : (run (init tcp) evs).1.dead = false) (hi : (run (init tcp) evs).1.impl = true) :
    (step (run (init tcp) evs).1 .resume).1.state = .running ∧
      (∃ r ∈ (step (run (init tcp) evs).1 .resume).1.recvs, r.res = .pending) ∧
      (step (run (init tcp) evs).1 .resume).2 = [] := by
  have hL : LInv (run (init tcp) evs).1 := by
    rcases live_run tcp evs hp hb with h | h | h
    · rw [hd] at h; cases h
    · rw [hi] at h; cases h
    · exact h
  have hso := hL.sock (.inl (by rw [hs]; simp))
  simp [step, hd, act, resume, hi, resumeImpl, hs, asyncReceive, hso]

example : (run (init false) [.connected true, .hConnect]).1.state = .paused := by decide +kernel

/-- **C84.** A connection established while packets are queued starts sending and receiving. -/
theorem C84_connect (tcp : Bool) (evs : List Ev) (hp : PauseIdle tcp evs)
    (hb : ∀ b ∈ sends evs, b ≠ []) (hc : (run (init tcp) evs).1.connect = some .ok)
    (hd : (run (init tcp) evs).1.dead = false) (hi : (run (init tcp) evs).1.impl = true)
    {b : Bytes} {q : List Bytes} (hq : (run (init tcp) evs).1.queue = b :: q) :
    (step (run (init tcp) evs).1 .hConnect).1.state = .running ∧
      (∃ r ∈ (step (run (init tcp) evs).1 .hConnect).1.recvs, r.res = .pending) ∧
      (step (run (init tcp) evs).1 .hConnect).1.write = some ⟨b, .pending⟩ ∧
      (step (run (init tcp) evs).1 .hConnect).2 = [] := by
  have hL : LInv (run (init tcp) evs).1 := by
    rcases live_run tcp evs hp hb with h | h | h
    · rw [hd] at h; cases h
    · rw [hi] at h; cases h
    · exact h
  have hso := hL.sock (.inr (by rw [hc]; simp))
  simp [step, hd, act, hc, connectHandler, resumeImpl, asyncReceive, hso, asyncWrite, hq]

example : (run (init false) [.send [5, 0], .connected true]).1.connect = some .ok ∧
    (run (init false) [.send [5, 0], .connected true]).1.queue = [[5, 0]] := by decide +kernel

/-- **C84.** `pause` and `resume` do nothing while connecting; `pause` does nothing when paused,
`resume` nothing when running. -/
theorem C84_noop (s : St) (hi : s.impl = true) :
    (s.state = .connecting → step s .pause = (s, []) ∧ step s .resume = (s, [])) ∧
    (s.state = .paused → step s .pause = (s, [])) ∧
    (s.state = .running → step s .resume = (s, [])) := by
  refine ⟨fun h => ?_, fun h => ?_, fun h => ?_⟩ <;>
    simp [step, act, pause, resume, resumeImpl, hi, h]

end Ndn.Transport
