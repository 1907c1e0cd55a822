import Verif.Transport.Spec
import Verif.Block.Lemmas

namespace Ndn.Transport
open Block Block.Spec Spec

theorem reads_append (a b : List Out) : reads (a ++ b) = reads a ++ reads b := by simp [reads]
theorem wires_append (a b : List Out) : wires (a ++ b) = wires a ++ wires b := by simp [wires]
theorem deliveries_append (a b : List Out) :
    deliveries (a ++ b) = deliveries a ++ deliveries b := by simp [deliveries]
theorem sends_append (a b : List Ev) : sends (a ++ b) = sends a ++ sends b := by simp [sends]

theorem deliveries_map (es : List Raw) : deliveries (es.map Out.deliver) = es := by
  induction es with
  | nil => rfl
  | cons e es ih => simp_all [deliveries]

theorem reads_map (es : List Raw) : reads (es.map Out.deliver) = [] := by
  induction es with
  | nil => rfl
  | cons e es ih => simp_all [reads]

theorem wires_map (es : List Raw) : wires (es.map Out.deliver) = [] := by
  induction es with
  | nil => rfl
  | cons e es ih => simp_all [wires]

theorem run_append (s : St) (a b : List Ev) :
    run s (a ++ b) = ((run (run s a).1 b).1, (run s a).2 ++ (run (run s a).1 b).2) := by
  induction a generalizing s with
  | nil => simp [run]
  | cons e a ih => simp [run, ih]

theorem run_snoc (s : St) (a : List Ev) (e : Ev) :
    run s (a ++ [e]) = ((step (run s a).1 e).1, (run s a).2 ++ (step (run s a).1 e).2) := by
  rw [run_append]; simp [run]

/-! ### Cutting octets into elements -/

theorem wire_pos {w : Bytes} {t : Nat} {v : Bytes} (h : TlvForm w t v) : 2 ≤ w.length := by
  exact Spec.TlvForm.length_ge h

theorem no_tlv {rest : Bytes} (h : fromBuffer rest = none) :
    ∀ w t v r, rest = w ++ r → ¬ TlvForm w t v := by
  intro w t v r he hf
  have := fromBuffer_iff (bs := rest) (rest := r) (r := ⟨t, w, v⟩) |>.2 ⟨he, hf⟩
  rw [h] at this; cases this

theorem extract_frames (fuel : Nat) (bs : Bytes) (h : bs.length ≤ fuel) :
    Frames bs (extract fuel bs).1 (extract fuel bs).2 := by
  induction fuel generalizing bs with
  | zero =>
    have : bs = [] := by cases bs <;> simp_all
    subst this
    refine ⟨by simp [extract], by simp [extract], ?_⟩
    intro w t v r he hf
    have := wire_pos hf
    have h2 := congrArg List.length he
    simp [extract] at h2; omega
  | succ fuel ih =>
    unfold extract
    by_cases hb : bs.isEmpty
    · rw [if_pos hb]
      have : bs = [] := by simpa using hb
      subst this
      refine ⟨by simp, by simp, ?_⟩
      intro w t v r he hf
      have := wire_pos hf
      have h2 := congrArg List.length he
      simp at h2; omega
    · rw [if_neg hb]
      cases hf : fromBuffer bs with
      | none => exact ⟨by simp, by simp, no_tlv hf⟩
      | some p =>
        obtain ⟨e, rest⟩ := p
        obtain ⟨he, ht⟩ := fromBuffer_iff.1 hf
        have hl := wire_pos ht
        have h2 := congrArg List.length he
        simp at h2
        obtain ⟨i1, i2, i3⟩ := ih rest (by omega)
        refine ⟨?_, ?_, i3⟩
        · simp only [List.map_cons, List.flatten_cons, List.append_assoc]
          rw [← i1, ← he]
        · intro x hx
          rcases List.mem_cons.1 hx with rfl | hx
          · exact ht
          · exact i2 x hx

theorem frames_append {a b rest rest' : Bytes} {es es' : List Raw} (h : Frames a es rest)
    (h' : Frames (rest ++ b) es' rest') : Frames (a ++ b) (es ++ es') rest' := by
  obtain ⟨h1, h2, -⟩ := h
  obtain ⟨g1, g2, g3⟩ := h'
  refine ⟨?_, ?_, g3⟩
  · rw [h1, List.append_assoc, g1]; simp
  · intro x hx
    rcases List.mem_append.1 hx with hx | hx
    · exact h2 x hx
    · exact g2 x hx

theorem frames_nil_nil : Frames [] [] [] := by
  refine ⟨rfl, by simp, ?_⟩
  intro w t v r he hf
  have := wire_pos hf
  have h2 := congrArg List.length he
  simp at h2; omega

theorem frames_unique {bs rest rest' : Bytes} {es es' : List Raw} (h : Frames bs es rest)
    (h' : Frames bs es' rest') : es = es' ∧ rest = rest' := by
  induction es generalizing bs es' with
  | nil =>
    obtain ⟨h1, -, h3⟩ := h
    cases es' with
    | nil => obtain ⟨g1, -, -⟩ := h'; simp at h1 g1; exact ⟨rfl, by rw [← h1, ← g1]⟩
    | cons e es' =>
      obtain ⟨g1, g2, -⟩ := h'
      simp at h1
      exact absurd (g2 e (by simp)) (h3 e.wire e.type e.value
        ((es'.map Raw.wire).flatten ++ rest') (by
        rw [← h1, g1]; simp only [List.map_cons, List.flatten_cons, List.append_assoc]))
  | cons e es ih =>
    obtain ⟨h1, h2, h3⟩ := h
    cases es' with
    | nil =>
      obtain ⟨g1, -, g3⟩ := h'
      simp at g1
      exact absurd (h2 e (by simp)) (g3 e.wire e.type e.value
        ((es.map Raw.wire).flatten ++ rest) (by
        rw [← g1, h1]; simp only [List.map_cons, List.flatten_cons, List.append_assoc]))
    | cons e' es' =>
      obtain ⟨g1, g2, g3⟩ := h'
      have k1 := fromBuffer_iff (bs := bs) (r := e)
        (rest := (es.map Raw.wire).flatten ++ rest) |>.2
        ⟨by rw [h1]; simp only [List.map_cons, List.flatten_cons, List.append_assoc],
          h2 e (by simp)⟩
      have k2 := fromBuffer_iff (bs := bs) (r := e')
        (rest := (es'.map Raw.wire).flatten ++ rest') |>.2
        ⟨by rw [g1]; simp only [List.map_cons, List.flatten_cons, List.append_assoc],
          g2 e' (by simp)⟩
      rw [k1] at k2
      simp only [Option.some.injEq, Prod.mk.injEq] at k2
      obtain ⟨rfl, k2⟩ := k2
      have := ih (bs := (es.map Raw.wire).flatten ++ rest)
        ⟨rfl, fun x hx => h2 x (by simp [hx]), h3⟩
        ⟨k2, fun x hx => g2 x (by simp [hx]), g3⟩
      exact ⟨by rw [this.1], this.2⟩

theorem cancel_ok {r : Res} : r.cancel = .ok ↔ r = .ok := by cases r <;> simp [Res.cancel]
theorem cancel_pending (r : Res) : r.cancel ≠ .pending := by cases r <;> simp [Res.cancel]

/-! ### The receive side, as long as the transport is not paused -/

/-- `H`: octets of the completions already handled, `W`: octets of a completion waiting,
`rest`: the unparsed end of `H`, `D`: what was delivered. -/
structure RInv (s : St) (R : Bytes) (D : List Raw) (H W rest : Bytes) : Prop where
  split : R = H ++ W
  frames : Frames H D rest
  small : rest.length ≤ maxPacket
  rxlen : s.rx.length = maxPacket
  ops : s.recvs = [] ∧ W = [] ∨ ∃ r, s.recvs = [r] ∧ rest = s.rx.take s.rxSize ∧
    s.rxSize = rest.length ∧ rest.length < maxPacket ∧
    (r.res = .ok → r.off = s.rxSize ∧ r.n = W.length ∧ rest.length + W.length ≤ maxPacket ∧
      s.rx.take (rest.length + W.length) = rest ++ W) ∧
    (r.res = .pending → r.off = s.rxSize) ∧ (r.res ≠ .ok → W = [])
  started : s.recvs ≠ [] ∨ R ≠ [] →
    s.connect = none ∧ s.resolve = none ∧ (s.state = .running ∨ s.state = .closed)
  noimpl : s.impl = false → s.queue = []
  conn : s.impl = true → s.state ≠ .connecting → s.connect = none ∧ s.resolve = none
  one : s.connect ≠ none → s.resolve = none

theorem rinv_start (tcp : Bool) : RInv (init tcp) [] [] [] [] [] where
  split := rfl
  frames := frames_nil_nil
  small := by simp
  rxlen := by simp [init]
  ops := .inl ⟨rfl, rfl⟩
  started := by rintro (h | h) <;> simp [init] at h
  noimpl := by simp [init]
  conn := by simp [init]
  one := by cases tcp <;> simp [init]

/-- Only the parts the receive side looks at matter. -/
theorem RInv.congr {s s' : St} {R D H W rest} (h : RInv s R D H W rest)
    (h1 : s'.recvs = s.recvs) (h2 : s'.rx = s.rx) (h3 : s'.rxSize = s.rxSize)
    (h4 : s'.recvs ≠ [] ∨ R ≠ [] →
      s'.connect = none ∧ s'.resolve = none ∧ (s'.state = .running ∨ s'.state = .closed))
    (h5 : s'.impl = false → s'.queue = [])
    (h6 : s'.impl = true → s'.state ≠ .connecting → s'.connect = none ∧ s'.resolve = none)
    (h7 : s'.connect ≠ none → s'.resolve = none) : RInv s' R D H W rest where
  split := h.split
  frames := h.frames
  small := h.small
  rxlen := by rw [h2]; exact h.rxlen
  ops := by rw [h1, h2, h3]; exact h.ops
  started := h4
  noimpl := h5
  conn := h6
  one := h7

theorem RInv.cancel {s : St} {R D H W rest} (h : RInv s R D H W rest) :
    RInv (cancelSocket s) R D H W rest where
  split := h.split
  frames := h.frames
  small := h.small
  rxlen := h.rxlen
  ops := by
    rcases h.ops with ⟨h1, h2⟩ | ⟨r, h1, h2, h3, h4, h5, h6, h7⟩
    · exact .inl ⟨by simp [cancelSocket, h1], h2⟩
    · refine .inr ⟨{ r with res := r.res.cancel }, by simp [cancelSocket, h1], h2, h3, h4, ?_, ?_, ?_⟩
      · intro hk; exact h5 (cancel_ok.1 hk)
      · intro hk; exact absurd hk (cancel_pending _)
      · intro hk; exact h7 (fun hr => hk (cancel_ok.2 hr))
  started := by
    intro hs
    have := h.started (by
      rcases hs with hs | hs
      · left; intro e; apply hs; simp [cancelSocket, e]
      · exact .inr hs)
    exact ⟨by simp [cancelSocket, this.1], this.2.1, this.2.2⟩
  noimpl := h.noimpl
  conn := by
    intro a b
    have := h.conn a b
    exact ⟨by simp [cancelSocket, this.1], this.2⟩
  one := by
    intro a
    exact h.one (fun e => a (by simp [cancelSocket, e]))

theorem RInv.closeImpl {s : St} {R D H W rest} (h : RInv s R D H W rest) :
    RInv { closeImpl s with impl := false } R D H W rest := by
  refine h.cancel.congr rfl rfl rfl ?_ (fun _ => rfl) (fun a => by cases a) h.cancel.one
  intro hs
  have := h.cancel.started hs
  exact ⟨this.1, this.2.1, .inr rfl⟩

theorem RInv.dead {s : St} {R D H W rest} (h : RInv s R D H W rest) :
    RInv { s with dead := true } R D H W rest :=
  h.congr rfl rfl rfl h.started h.noimpl h.conn h.one

theorem close_outs (s : St) : reads (close s).2 = [] ∧ deliveries (close s).2 = [] ∧
    wires (close s).2 = [] := by
  unfold close; split <;> simp [reads, deliveries, wires]

theorem closeThrow_outs (s : St) : reads (closeThrow s).2 = [] ∧ deliveries (closeThrow s).2 = [] ∧
    wires (closeThrow s).2 = [] := by
  unfold closeThrow close; split <;> simp_all [reads, deliveries, wires]

theorem RInv.close {s : St} {R D H W rest} (h : RInv s R D H W rest) :
    RInv (close s).1 R D H W rest := by
  unfold Transport.close
  split
  · exact h.closeImpl
  · exact h.dead

theorem RInv.closeThrow {s : St} {R D H W rest} (h : RInv s R D H W rest) :
    RInv (closeThrow s).1 R D H W rest := by
  unfold Transport.closeThrow
  split <;> exact h.close

theorem asyncWrite_outs (s : St) : reads (asyncWrite s).2 = [] ∧ deliveries (asyncWrite s).2 = [] ∧
    wires (asyncWrite s).2 = [] := by
  unfold asyncWrite; split <;> simp [reads, deliveries, wires]

theorem RInv.asyncWrite {s : St} {R D H W rest} (h : RInv s R D H W rest) :
    RInv (asyncWrite s).1 R D H W rest := by
  unfold Transport.asyncWrite
  split
  · exact h.dead
  · exact h.congr rfl rfl rfl h.started h.noimpl h.conn h.one

theorem frames_nil {D : List Raw} {rest : Bytes} (h : Frames [] D rest) : D = [] ∧ rest = [] :=
  frames_unique h frames_nil_nil

/-- Starting to receive for the first time. -/
theorem RInv.begin {s : St} {R D H W rest} (h : RInv s R D H W rest) (hr : s.recvs = [])
    (hR : R = []) (hc : s.connect = none) (hz : s.resolve = none) :
    RInv (asyncReceive { s with state := .running, rxSize := 0 }) R D H W rest := by
  have hs := h.split
  rw [hR] at hs
  have hH : H = [] := (List.append_eq_nil_iff.1 hs.symm).1
  have hW : W = [] := (List.append_eq_nil_iff.1 hs.symm).2
  have hf := h.frames
  rw [hH] at hf
  obtain ⟨rfl, rfl⟩ := frames_nil hf
  refine { split := h.split, frames := h.frames, small := h.small, rxlen := h.rxlen, ops := ?_,
           started := ?_, noimpl := h.noimpl, conn := fun _ _ => ⟨hc, hz⟩, one := h.one }
  · refine .inr ⟨⟨0, if s.sockOpen then .pending else .failed, 0⟩, ?_, by simp [asyncReceive],
      by simp [asyncReceive], by simp [maxPacket], ?_, ?_, ?_⟩
    · simp [asyncReceive, hr]
    · intro he; split at he <;> cases he
    · intro _; rfl
    · intro _; exact hW
  · intro _; exact ⟨hc, hz, .inl rfl⟩

/-- A state change that only concerns the write side. -/
theorem RInv.writeSide {s s' : St} {R D H W rest} (h : RInv s R D H W rest)
    (h1 : s'.recvs = s.recvs) (h2 : s'.rx = s.rx) (h3 : s'.rxSize = s.rxSize)
    (h4 : s'.connect = s.connect) (h5 : s'.resolve = s.resolve) (h6 : s'.state = s.state)
    (h7 : s'.impl = s.impl) (h8 : s.impl = false → s'.queue = []) : RInv s' R D H W rest := by
  refine h.congr h1 h2 h3 ?_ ?_ ?_ ?_
  · rw [h1, h4, h5, h6]; exact h.started
  · rw [h7]; exact h8
  · rw [h4, h5, h6, h7]; exact h.conn
  · rw [h4, h5]; exact h.one

theorem RInv.fresh {s : St} {R D H W rest} (h : RInv s R D H W rest)
    (hc : s.connect ≠ none ∨ s.resolve ≠ none ∨ s.state = .paused ∨ s.state = .connecting) :
    s.recvs = [] ∧ R = [] := by
  have key : ¬ (s.recvs ≠ [] ∨ R ≠ []) := by
    intro hs
    obtain ⟨a, b, c⟩ := h.started hs
    rcases hc with hc | hc | hc | hc
    · exact hc a
    · exact hc b
    · rcases c with c | c <;> rw [hc] at c <;> cases c
    · rcases c with c | c <;> rw [hc] at c <;> cases c
  constructor
  · exact Classical.byContradiction fun e => key (.inl e)
  · exact Classical.byContradiction fun e => key (.inr e)

theorem rinv_send {s : St} {R D H W rest} (b : Bytes) (h : RInv s R D H W rest) :
    RInv (send s b).1 R D H W rest ∧ reads (send s b).2 = [] ∧ deliveries (send s b).2 = [] := by
  unfold send
  by_cases hi : s.impl = true
  · rw [if_pos hi]
    have h' : RInv { s with queue := s.queue ++ [b] } R D H W rest :=
      h.writeSide rfl rfl rfl rfl rfl rfl rfl (fun e => by rw [hi] at e; cases e)
    split
    · exact ⟨h'.asyncWrite, (asyncWrite_outs _).1, (asyncWrite_outs _).2.1⟩
    · exact ⟨h', rfl, rfl⟩
  · rw [if_neg hi]; exact ⟨h.dead, rfl, rfl⟩

theorem rinv_resume {s : St} {R D H W rest} (h : RInv s R D H W rest) :
    RInv (resume s).1 R D H W rest ∧ reads (resume s).2 = [] ∧ deliveries (resume s).2 = [] := by
  unfold resume
  by_cases hi : s.impl = true
  · rw [if_pos hi]
    unfold resumeImpl
    by_cases hs : s.state = .paused
    · rw [if_pos hs]
      obtain ⟨a, b⟩ := h.fresh (.inr (.inr (.inl hs)))
      obtain ⟨c, d⟩ := h.conn hi (by rw [hs]; simp)
      exact ⟨h.begin a b c d, rfl, rfl⟩
    · rw [if_neg hs]; exact ⟨h, rfl, rfl⟩
  · rw [if_neg hi]; exact ⟨h.dead, rfl, rfl⟩

theorem rinv_connect {s : St} {R D H W rest} (r : Res) (h : RInv s R D H W rest)
    (hc : s.connect = none) (hz : s.resolve = none) (hr : s.recvs = []) (hR : R = []) :
    RInv (connectHandler s r).1 R D H W rest ∧ reads (connectHandler s r).2 = [] ∧
      deliveries (connectHandler s r).2 = [] := by
  have h' : RInv { s with timer := s.timer.map Res.cancel } R D H W rest :=
    h.writeSide rfl rfl rfl rfl rfl rfl rfl h.noimpl
  cases r with
  | pending => exact ⟨h', rfl, rfl⟩
  | aborted => exact ⟨h', rfl, rfl⟩
  | failed => exact ⟨h'.closeThrow, (closeThrow_outs _).1, (closeThrow_outs _).2.1⟩
  | ok =>
    have h2 : RInv { s with timer := s.timer.map Res.cancel, state := .paused } R D H W rest := by
      refine h.congr rfl rfl rfl ?_ h.noimpl (fun _ _ => ⟨hc, hz⟩) h.one
      rintro (e | e)
      · exact absurd hr e
      · exact absurd hR e
    simp only [connectHandler]
    split
    · exact ⟨h2, rfl, rfl⟩
    · have h3 : RInv (resumeImpl { s with timer := s.timer.map Res.cancel, state := .paused })
          R D H W rest := by
        unfold resumeImpl
        rw [if_pos rfl]
        exact h2.begin hr hR hc hz
      exact ⟨h3.asyncWrite, (asyncWrite_outs _).1, (asyncWrite_outs _).2.1⟩

theorem rinv_writeH {s : St} {R D H W rest} (r : Res) (h : RInv s R D H W rest) :
    RInv (writeHandler s r).1 R D H W rest ∧ reads (writeHandler s r).2 = [] ∧
      deliveries (writeHandler s r).2 = [] := by
  cases r with
  | pending => exact ⟨h, rfl, rfl⟩
  | aborted => exact ⟨h, rfl, rfl⟩
  | failed => exact ⟨h.closeThrow, (closeThrow_outs _).1, (closeThrow_outs _).2.1⟩
  | ok =>
    simp only [writeHandler]
    split
    · exact ⟨h, rfl, rfl⟩
    · cases hq : s.queue with
      | nil =>
        have := h.dead
        simp only [hq] at this
        exact ⟨this, rfl, rfl⟩
      | cons b q =>
        have h' : RInv { s with queue := q } R D H W rest :=
          h.writeSide rfl rfl rfl rfl rfl rfl rfl (fun e => by
            have := h.noimpl e; rw [hq] at this; cases this)
        simp only
        split
        · exact ⟨h', rfl, rfl⟩
        · exact ⟨h'.asyncWrite, (asyncWrite_outs _).1, (asyncWrite_outs _).2.1⟩

theorem overwrite_length {buf bs : Bytes} {off : Nat} (h : off + bs.length ≤ buf.length) :
    (overwrite buf off bs).length = buf.length := by
  simp [overwrite]; omega

theorem take_overwrite {buf bs : Bytes} {off : Nat} (h : off + bs.length ≤ buf.length) :
    (overwrite buf off bs).take (off + bs.length) = buf.take off ++ bs := by
  unfold overwrite
  rw [List.take_append_of_le_length (by simp; omega)]
  rw [List.take_of_length_le (by simp; omega)]

/-- Receiving again after some octets were handled. -/
theorem RInv.again {s : St} {R D H rest rest0} (h : RInv s R D H [] rest0) {D' : List Raw}
    {H' : Bytes} (hf : Frames H' D' rest) (hR : R = H') (hr : s.recvs = []) {rx : Bytes} {n : Nat}
    (hl : rx.length = maxPacket) (ht : rest = rx.take n) (hn : n = rest.length)
    (hlt : rest.length < maxPacket)
    (hst : s.connect = none ∧ s.resolve = none ∧ (s.state = .running ∨ s.state = .closed)) :
    RInv (asyncReceive { s with rx := rx, rxSize := n }) R D' H' [] rest where
  split := by simpa using hR
  frames := hf
  small := by omega
  rxlen := hl
  ops := .inr ⟨⟨n, if s.sockOpen then .pending else .failed, 0⟩, by simp [asyncReceive, hr],
    ht, hn, hlt, (fun he => by split at he <;> cases he), fun _ => rfl, fun _ => rfl⟩
  started := fun _ => hst
  noimpl := h.noimpl
  conn := fun _ _ => ⟨hst.1, hst.2.1⟩
  one := fun _ => hst.2.1

theorem extract_length (fuel : Nat) (bs : Bytes) :
    (extract fuel bs).2.length ≤ bs.length := by
  induction fuel generalizing bs with
  | zero => simp [extract]
  | succ fuel ih =>
    unfold extract
    split
    · simp
    · cases hf : fromBuffer bs with
      | none => simp
      | some p =>
        have h := congrArg List.length (fromBuffer_iff.1 (show _ = some (p.1, p.2) from hf)).1
        have := ih p.2
        simp at h ⊢; omega

theorem rinv_recv {s : St} {R D H W rest} {r : RecvOp} {i : Nat} (h : RInv s R D H W rest)
    (hr : s.recvs[i]? = some r) (hp : r.res ≠ .pending) :
    ∃ H' W' rest', RInv (recvHandler { s with recvs := s.recvs.eraseIdx i } r.res r.n).1
      (R ++ reads (recvHandler { s with recvs := s.recvs.eraseIdx i } r.res r.n).2)
      (D ++ deliveries (recvHandler { s with recvs := s.recvs.eraseIdx i } r.res r.n).2)
      H' W' rest' := by
  rcases h.ops with ⟨h1, -⟩ | ⟨r', h1, h2, h3, h4, h5, h6, h7⟩
  · rw [h1] at hr; simp at hr
  have hi : i = 0 ∧ r' = r := by
    rw [h1] at hr
    cases i with
    | zero => simp at hr; exact ⟨rfl, hr⟩
    | succ i => simp at hr
  obtain ⟨rfl, rfl⟩ := hi
  have hst := h.started (.inl (by rw [h1]; simp))
  have he : s.recvs.eraseIdx 0 = [] := by rw [h1]; rfl
  rw [he]
  by_cases hk : r'.res = .ok
  · -- a completed receive
    obtain ⟨k1, k2, k3, k4⟩ := h5 hk
    rw [hk, k2]
    have base : RInv { s with recvs := [] } R (D ++ (extract (rest ++ W).length (rest ++ W)).1)
        (H ++ W) [] (extract (rest ++ W).length (rest ++ W)).2 := by
      refine { split := by simpa using h.split,
               frames := frames_append h.frames (extract_frames _ _ (Nat.le_refl _)),
               small := ?_, rxlen := h.rxlen, ops := .inl ⟨rfl, rfl⟩, started := fun _ => hst,
               noimpl := h.noimpl, conn := fun _ _ => ⟨hst.1, hst.2.1⟩, one := fun _ => hst.2.1 }
      have := extract_length (rest ++ W).length (rest ++ W)
      simp at this; simp; omega
    simp only [recvHandler]
    rw [if_neg (by omega)]
    have hav : s.rx.take (s.rxSize + W.length) = rest ++ W := by rw [h3]; exact k4
    simp only [hav]
    have hx := extract_length (rest ++ W).length (rest ++ W)
    generalize hex : extract (rest ++ W).length (rest ++ W) = x at *
    by_cases c1 : x.2.isEmpty = true
    · rw [if_pos c1]
      have c1' : x.2 = [] := by simpa using c1
      refine ⟨H ++ W, [], x.2, ?_⟩
      simp only [reads_map, deliveries_map, List.append_nil]
      have := base.again (rx := s.rx) (n := 0) base.frames h.split rfl h.rxlen
        (by simp [c1']) (by simp [c1']) (by simp [c1', maxPacket]) hst
      exact this
    · rw [if_neg c1]
      by_cases c2 : x.2.length ≠ (rest ++ W).length
      · rw [if_pos c2]
        refine ⟨H ++ W, [], x.2, ?_⟩
        simp only [reads_map, deliveries_map, List.append_nil]
        have hb : 0 + x.2.length ≤ s.rx.length := by
          rw [h.rxlen]; simp at hx; omega
        refine base.again base.frames h.split rfl ?_ ?_ rfl ?_ hst
        · rw [overwrite_length hb]; exact h.rxlen
        · have := take_overwrite hb
          simp at this; exact this.symm
        · simp at hx c2; omega
      · rw [if_neg c2]
        have c2' : x.2.length = (rest ++ W).length := Classical.byContradiction c2
        have hxe : x.2 = rest ++ W := by
          have := (extract_frames (rest ++ W).length (rest ++ W) (Nat.le_refl _)).1
          rw [hex] at this
          have hl := congrArg List.length this
          rw [c2'.symm, List.length_append] at hl
          have : (x.1.map Raw.wire).flatten = [] := by
            rw [← List.length_eq_zero_iff]; omega
          rename_i h0
          rw [this] at h0; exact h0.symm
        by_cases c3 : x.2.length = maxPacket
        · rw [if_pos c3]
          refine ⟨H ++ W, [], x.2, ?_⟩
          simp only [reads_append, deliveries_append, reads_map, deliveries_map,
            (closeThrow_outs _).1, (closeThrow_outs _).2.1, List.append_nil, List.nil_append]
          refine RInv.closeThrow ?_
          exact { base with
            ops := .inl ⟨rfl, rfl⟩, rxlen := h.rxlen, started := fun _ => hst,
            noimpl := h.noimpl, conn := fun _ _ => ⟨hst.1, hst.2.1⟩, one := fun _ => hst.2.1 }
        · rw [if_neg c3]
          refine ⟨H ++ W, [], x.2, ?_⟩
          simp only [reads_map, deliveries_map, List.append_nil]
          refine base.again base.frames h.split rfl h.rxlen ?_ ?_ ?_ hst
          · rw [hav]; exact hxe
          · rw [c2']; simp; omega
          · simp at c2'; omega
  · -- aborted or failed
    have hW := h7 hk
    have base : RInv { s with recvs := [] } R D H W rest :=
      { split := h.split, frames := h.frames, small := h.small, rxlen := h.rxlen,
        ops := .inl ⟨rfl, hW⟩, started := fun _ => hst,
        noimpl := h.noimpl, conn := fun _ _ => ⟨hst.1, hst.2.1⟩, one := fun _ => hst.2.1 }
    cases hrr : r'.res with
    | pending => exact absurd hrr hp
    | ok => exact absurd hrr hk
    | aborted => exact ⟨H, W, rest, by simpa [recvHandler, reads, deliveries] using base⟩
    | failed =>
      refine ⟨H, W, rest, ?_⟩
      simp only [recvHandler, (closeThrow_outs _).1, (closeThrow_outs _).2.1, List.append_nil]
      exact base.closeThrow

theorem rinv_readable {s : St} {R D H W rest} {bs : Bytes} (h : RInv s R D H W rest)
    {rs : List RecvOp} {off : Nat} (hfl : fill s.recvs bs.length = some (rs, off))
    (hb : off + bs.length ≤ maxPacket) :
    ∃ W', RInv { s with recvs := rs, rx := overwrite s.rx off bs } (R ++ bs) D H W' rest := by
  rcases h.ops with ⟨h1, -⟩ | ⟨r, h1, h2, h3, h4, h5, h6, h7⟩
  · rw [h1] at hfl; simp [fill] at hfl
  have hst := h.started (.inl (by rw [h1]; simp))
  rw [h1] at hfl
  by_cases hk : r.res = .pending
  · simp only [fill, if_pos hk, Option.some.injEq, Prod.mk.injEq] at hfl
    obtain ⟨rfl, rfl⟩ := hfl
    have hW := h7 (by rw [hk]; simp)
    have ho := h6 hk
    have hb' : r.off + bs.length ≤ s.rx.length := by rw [h.rxlen]; exact hb
    refine ⟨bs, { split := by rw [h.split, hW]; simp, frames := h.frames, small := h.small,
                  rxlen := by rw [overwrite_length hb']; exact h.rxlen, ops := .inr ?_,
                  started := fun _ => hst, noimpl := h.noimpl, conn := h.conn, one := h.one }⟩
    refine ⟨_, rfl, ?_, h3, h4, ?_, (fun e => by cases e), fun e => absurd rfl e⟩
    · show rest = (overwrite s.rx r.off bs).take s.rxSize
      rw [ho]
      unfold overwrite
      rw [List.append_assoc, List.take_append_of_le_length (by simp; rw [h.rxlen]; omega)]
      rw [List.take_take, Nat.min_self]; exact h2
    · intro _
      refine ⟨ho, rfl, by omega, ?_⟩
      show (overwrite s.rx r.off bs).take (rest.length + bs.length) = rest ++ bs
      have : rest.length = r.off := by omega
      rw [this, take_overwrite hb', ho, ← h2]
  · simp [fill, if_neg hk] at hfl

theorem rinv_readFails {s : St} {R D H W rest} (h : RInv s R D H W rest) :
    RInv { s with recvs := failRecv s.recvs } R D H W rest := by
  rcases h.ops with ⟨h1, h2⟩ | ⟨r, h1, h2, h3, h4, h5, h6, h7⟩
  · refine h.congr (by simp [h1, failRecv]) rfl rfl ?_ h.noimpl h.conn h.one
    intro hs
    exact h.started (by rw [h1] at hs ⊢; simpa [failRecv] using hs)
  · by_cases hk : r.res = .pending
    · have hst := h.started (.inl (by rw [h1]; simp))
      refine { split := h.split, frames := h.frames, small := h.small, rxlen := h.rxlen,
               ops := .inr ⟨{ r with res := .failed }, by simp [h1, failRecv, hk], h2, h3, h4,
                 (fun e => by cases e), (fun e => by cases e), fun _ => h7 (by rw [hk]; simp)⟩,
               started := fun _ => hst, noimpl := h.noimpl, conn := h.conn, one := h.one }
    · have : failRecv s.recvs = s.recvs := by simp [h1, failRecv, hk]
      refine h.congr this rfl rfl ?_ h.noimpl h.conn h.one
      show failRecv s.recvs ≠ [] ∨ R ≠ [] → _
      rw [this]; exact h.started

theorem rinv_step {s : St} {R D H W rest} {e : Ev} (h : RInv s R D H W rest) (hp : e ≠ .pause) :
    ∃ H' W' rest', RInv (step s e).1 (R ++ reads (step s e).2) (D ++ deliveries (step s e).2)
      H' W' rest' := by
  have lift : ∀ {x : St × List Out}, RInv x.1 R D H W rest ∧ reads x.2 = [] ∧ deliveries x.2 = [] →
      ∃ H' W' rest', RInv x.1 (R ++ reads x.2) (D ++ deliveries x.2) H' W' rest' := by
    rintro x ⟨a, b, c⟩
    rw [b, c]; exact ⟨H, W, rest, by simpa using a⟩
  have same : ∀ {x : St × List Out}, x = (s, []) →
      ∃ H' W' rest', RInv x.1 (R ++ reads x.2) (D ++ deliveries x.2) H' W' rest' := by
    rintro x rfl; exact lift ⟨h, rfl, rfl⟩
  by_cases hd : s.dead = true
  · exact same (by simp [step, hd])
  rw [show step s e = act s e by simp [step, hd]]
  cases e with
  | send b => simp only [act]; exact lift (rinv_send b h)
  | pause => exact absurd rfl hp
  | resume => simp only [act]; exact lift (rinv_resume h)
  | close =>
    simp only [act]
    exact lift ⟨h.close, (close_outs s).1, (close_outs s).2.1⟩
  | resolved k =>
    by_cases hr : s.resolve = some .pending
    · refine lift (x := act s (.resolved k)) ?_
      simp only [act, hr, if_true]
      refine ⟨h.congr rfl rfl rfl ?_ h.noimpl ?_ ?_, rfl, rfl⟩
      · intro hs
        have := (h.started hs).2.1
        rw [hr] at this; cases this
      · intro a b
        have := (h.conn a b).2
        rw [hr] at this; cases this
      · intro a
        have := h.one a
        rw [hr] at this; cases this
    · exact same (by simp [act, hr])
  | connected k =>
    by_cases hr : s.connect = some .pending
    · refine lift (x := act s (.connected k)) ?_
      simp only [act, hr, if_true]
      refine ⟨h.congr rfl rfl rfl ?_ h.noimpl ?_ ?_, rfl, rfl⟩
      · intro hs
        have := (h.started hs).1
        rw [hr] at this; cases this
      · intro a b
        have := (h.conn a b).1
        rw [hr] at this; cases this
      · intro a
        exact h.one (by rw [hr]; simp)
    · exact same (by simp [act, hr])
  | timerFires =>
    by_cases hr : s.timer = some .pending
    · refine lift (x := act s .timerFires) ?_
      simp only [act, hr, if_true]
      exact ⟨h.writeSide rfl rfl rfl rfl rfl rfl rfl h.noimpl, rfl, rfl⟩
    · exact same (by simp [act, hr])
  | written n =>
    cases hw : s.write with
    | none => exact same (by simp [act, hw])
    | some w =>
      by_cases hk : w.res = .pending ∧ n ≤ w.left.length
      · refine lift (x := act s (.written n)) ?_
        simp only [act, hw, hk, if_true, and_self]
        exact ⟨h.writeSide rfl rfl rfl rfl rfl rfl rfl h.noimpl, rfl, rfl⟩
      · exact same (by simp [act, hw, hk])
  | writeFails =>
    cases hw : s.write with
    | none => exact same (by simp [act, hw])
    | some w =>
      by_cases hk : w.res = .pending
      · refine lift (x := act s .writeFails) ?_
        simp only [act, hw, hk, if_true, and_self]
        exact ⟨h.writeSide rfl rfl rfl rfl rfl rfl rfl h.noimpl, rfl, rfl⟩
      · exact same (by simp [act, hw, hk])
  | readable bs =>
    cases hfl : fill s.recvs bs.length with
    | none => exact same (by simp [act, hfl])
    | some p =>
      obtain ⟨rs, off⟩ := p
      by_cases hk : bs ≠ [] ∧ off + bs.length ≤ maxPacket
      · obtain ⟨W', h'⟩ := rinv_readable h hfl hk.2
        refine ⟨H, W', rest, ?_⟩
        simp only [act, hfl, hk, if_true, and_self]
        simpa [reads, deliveries, hk] using h'
      · exact same (by simp only [act, hfl, hk]; rfl)
  | readFails =>
    refine lift (x := act s .readFails) ?_
    simp only [act]
    exact ⟨rinv_readFails h, rfl, rfl⟩
  | hResolve =>
    cases hr : s.resolve with
    | none => exact same (by simp [act, hr])
    | some r =>
      by_cases hk : r = .pending
      · exact same (by simp [act, hr, hk])
      · obtain ⟨f1, f2⟩ := h.fresh (.inr (.inl (by rw [hr]; simp)))
        have hcn : s.connect = none := by
          cases hc : s.connect with
          | none => rfl
          | some c =>
            have := h.one (by rw [hc]; simp)
            rw [hr] at this; cases this
        have h' : RInv { s with resolve := none } R D H W rest := by
          refine h.congr rfl rfl rfl ?_ h.noimpl ?_ (fun _ => rfl)
          · rintro (e | e)
            · exact absurd f1 e
            · exact absurd f2 e
          · intro _ _; exact ⟨hcn, rfl⟩
        refine lift (x := act s .hResolve) ?_
        simp only [act, hr, if_neg hk]
        cases r with
        | pending => exact absurd rfl hk
        | aborted => exact ⟨h', rfl, rfl⟩
        | failed => exact ⟨h'.closeThrow, (closeThrow_outs _).1, (closeThrow_outs _).2.1⟩
        | ok =>
          refine ⟨h.congr rfl rfl rfl ?_ h.noimpl ?_ (fun _ => rfl), rfl, rfl⟩
          · rintro (e | e)
            · exact absurd f1 e
            · exact absurd f2 e
          · intro a b
            have := (h.conn a b).2
            rw [hr] at this; cases this
  | hConnect =>
    cases hr : s.connect with
    | none => exact same (by simp [act, hr])
    | some r =>
      by_cases hk : r = .pending
      · exact same (by simp [act, hr, hk])
      · obtain ⟨f1, f2⟩ := h.fresh (.inl (by rw [hr]; simp))
        have hz := h.one (by rw [hr]; simp)
        have h' : RInv { s with connect := none } R D H W rest := by
          refine h.congr rfl rfl rfl ?_ h.noimpl (fun _ _ => ⟨rfl, hz⟩) (fun _ => hz)
          rintro (e | e)
          · exact absurd f1 e
          · exact absurd f2 e
        refine lift (x := act s .hConnect) ?_
        simp only [act, hr, if_neg hk]
        exact rinv_connect r h' rfl hz f1 f2
  | hTimer =>
    cases hr : s.timer with
    | none => exact same (by simp [act, hr])
    | some r =>
      by_cases hk : r = .pending
      · exact same (by simp [act, hr, hk])
      · have h' : RInv { s with timer := none } R D H W rest :=
          h.writeSide rfl rfl rfl rfl rfl rfl rfl h.noimpl
        refine lift (x := act s .hTimer) ?_
        simp only [act, hr, if_neg hk]
        cases r with
        | pending => exact absurd rfl hk
        | aborted => exact ⟨h', rfl, rfl⟩
        | failed => exact ⟨h', rfl, rfl⟩
        | ok => exact ⟨h'.closeThrow, (closeThrow_outs _).1, (closeThrow_outs _).2.1⟩
  | hWrite =>
    cases hw : s.write with
    | none => exact same (by simp [act, hw])
    | some w =>
      by_cases hk : w.res = .pending
      · exact same (by simp [act, hw, hk])
      · have h' : RInv { s with write := none } R D H W rest :=
          h.writeSide rfl rfl rfl rfl rfl rfl rfl h.noimpl
        refine lift (x := act s .hWrite) ?_
        simp only [act, hw, if_neg hk]
        exact rinv_writeH w.res h'
  | hRecv i =>
    cases hr : s.recvs[i]? with
    | none => exact same (by simp [act, hr])
    | some r =>
      by_cases hk : r.res = .pending
      · exact same (by simp [act, hr, hk])
      · have := rinv_recv h hr hk
        simp only [act, hr, if_neg hk]
        exact this

theorem rinv_run (tcp : Bool) (evs : List Ev) (hp : Ev.pause ∉ evs) :
    ∃ H W rest, RInv (run (init tcp) evs).1 (reads (run (init tcp) evs).2)
      (deliveries (run (init tcp) evs).2) H W rest := by
  have key : ∀ (n : Nat), ∃ H W rest, RInv (run (init tcp) (evs.take n)).1
      (reads (run (init tcp) (evs.take n)).2) (deliveries (run (init tcp) (evs.take n)).2)
      H W rest := by
    intro n
    induction n with
    | zero => exact ⟨[], [], [], by simpa [run, reads, deliveries] using rinv_start tcp⟩
    | succ n ih =>
      obtain ⟨H, W, rest, h⟩ := ih
      by_cases hn : n < evs.length
      · rw [List.take_succ, List.getElem?_eq_getElem hn, Option.toList_some, run_snoc]
        simp only [reads_append, deliveries_append]
        exact rinv_step h (fun e => hp (e ▸ List.getElem_mem hn))
      · rw [List.take_of_length_le (by omega)]
        rw [List.take_of_length_le (by omega)] at h
        exact ⟨H, W, rest, h⟩
  have := key evs.length
  rwa [List.take_length] at this

end Ndn.Transport
