import Verif.Flow.DatasetProps
import Verif.Mgmt.DispatcherProps
import Verif.Notify.Props
/-
C141: a notification stream posted through a dispatcher and followed by a subscriber.
-/
namespace Ndn.Flow
open Ndn.Packet Ndn.Name Ndn.Block Ndn.Tlv Ndn.Packet.Spec Spec

namespace Spec

/-- The packets posted in a stream, in order, each with the octets of the notification the application posted. -/
def posted (stream : List Comp) (l : Mgmt.Log) : List (Mgmt.OutData × Bytes) :=
  l.filterMap fun e =>
    match e with
    | (.post _ b, .store x :: _) => if x.name.dropLast = stream then some (x, b) else none
    | _ => none

/-- Data of this name may answer the Interest. -/
def Matches (r : Notify.Req) (name : List Comp) : Prop :=
  if r.canBePrefix then r.name <+: name else r.name = name

/-- The notifications handed to the handlers, in order. -/
def heard (l : Notify.Log) : List Nat :=
  l.flatMap fun e => e.2.filterMap fun o => match o with | .deliver v => some v | _ => none

/-- The octets are a packet posted in the stream, as sent by the dispatcher. -/
def FromStream (p : Segmenter.Params) (stream : List Comp) (l : Mgmt.Log) (wire : Bytes) : Prop :=
  ∃ x ∈ posted stream l, ∃ f, sendData p x.1 = some f ∧ DataWF f ∧ f.encode = some wire

end Spec

theorem posted_names (stream : List Comp) (l : Mgmt.Log) :
    (posted stream l).map (fun x => x.1.name) = Mgmt.notifications stream l := by
  unfold posted Mgmt.notifications
  rw [List.map_filterMap]
  congr 1
  funext e
  rcases e with ⟨e, os⟩
  cases e <;> try rfl
  cases os with
  | nil => rfl
  | cons o os =>
    cases o <;> try rfl
    dsimp only
    split <;> rfl

theorem posted_content {s : Settings} (hs : Mgmt.Consistent s) (es : List Mgmt.Ev) {stream : List Comp} {x : Mgmt.OutData × Bytes}
    (h : x ∈ posted stream (Mgmt.logOf s es)) : x.1.content = .bytes x.2 := by
  obtain ⟨e, he, hx⟩ := List.mem_filterMap.mp h
  obtain ⟨k, hk⟩ := List.mem_iff_getElem?.mp he
  rcases e with ⟨e, os⟩
  unfold Mgmt.logOf at hk
  rw [List.getElem?_zip_eq_some] at hk
  obtain ⟨h1, h2⟩ := hk
  obtain ⟨os', h3, h4⟩ := Mgmt.C82_processing s hs es k e h1
  dsimp only at h2
  rw [h2] at h3
  cases h3
  cases e <;> try (simp at hx; done)
  rename_i rel b
  cases os with
  | nil => simp at hx
  | cons o os =>
    cases o <;> try (simp at hx; done)
    rename_i y
    dsimp only at hx
    split at hx
    · cases hx
      dsimp only
      obtain ⟨p1, p2, p3⟩ := h4
      by_cases hc : ∃ t, Mgmt.TopLive ((Mgmt.logOf s es).take k) t
      · obtain ⟨t, ht⟩ := hc
        by_cases hu : ∀ t', Mgmt.TopLive ((Mgmt.logOf s es).take k) t' → t' = t
        · obtain ⟨z, n, q1, _, q2, _⟩ := p1 t ht hu
          simp only [List.cons.injEq, Mgmt.Out.store.injEq] at q1
          rw [q1.1]; exact q2
        · exfalso
          have : ∃ t', Mgmt.TopLive ((Mgmt.logOf s es).take k) t' ∧ t' ≠ t :=
            Classical.byContradiction fun g => hu fun t' h' => Classical.byContradiction fun g' => g ⟨t', h', g'⟩
          obtain ⟨t', a1, a2⟩ := this
          have := p3 ⟨t, t', ht, a1, fun h => a2 h.symm⟩
          cases this
      · exfalso
        have := p2 (fun t ht => hc ⟨t, ht⟩)
        cases this
    · cases hx

theorem seq_to (st : Settings) (hd : Mgmt.Consistent st) (n : Nat) (hn : n < 2 ^ 64) :
    Conv.sequence.to st (Name.Spec.convComp st.encodeMarker .sequence n) = some n := by
  obtain ⟨c, h3, _, h5⟩ := C16_roundtrip st .sequence n hn hd
  rw [Conv.from_eq] at h3
  simp only [Option.some.injEq] at h3
  rw [h3]; exact h5

/-- A packet of the stream is heard as the notification it carries. -/
theorem hear_posted {p : Segmenter.Params} (hs : Mgmt.Consistent p.settings) {es : List Mgmt.Ev} {stream : List Comp}
    (dec : Bytes → Option Nat) {x : Mgmt.OutData × Bytes} (hx : x ∈ posted stream (Mgmt.logOf p.settings es)) {f : DFields}
    (hf : sendData p x.1 = some f) (hwf : DataWF f) {wire : Bytes} (he : f.encode = some wire) :
    hear dec wire = some (.data x.1.name (dec x.2) []) := by
  obtain ⟨w, b, h1, h2, h3, _⟩ := C23_roundtrip f hwf
  rw [he, Option.some.injEq] at h1
  subst h1
  obtain ⟨g1, _, _, g3⟩ := sendData_fields hf
  have hc := posted_content hs es hx
  rw [hc] at g3
  unfold hear
  rw [h2]
  simp [h3, g1, g3, binaryBlock]

/-- One notification heard. -/
theorem hear_step (c : Notify.Cfg) (es : List Notify.Ev) (name : List Comp) (n v : Nat) (r : Notify.Req)
    (alive : (Notify.run c es).1.dead = false) (hr : Notify.Spec.outstanding (Notify.run c es).2 = some r)
    (hs : (Notify.run c es).1.hasSub = true) (hn : Notify.Spec.seqOf c name = some n) :
    (Notify.run c (es ++ [.data name (some v) []])).1.dead = false ∧
    (Notify.run c (es ++ [.data name (some v) []])).1.hasSub = true ∧
    Notify.Spec.outstanding (Notify.run c (es ++ [.data name (some v) []])).2 = some (Notify.Spec.numberedReq c ((n + 1) % 2 ^ 64)) ∧
    heard (Notify.run c (es ++ [.data name (some v) []])).2 = heard (Notify.run c es).2 ++ [v] := by
  have hd := Notify.C68_next_plain c es name n v r alive hr hs hn
  rw [Notify.during_eq] at hd
  have h0 : (Notify.step c (Notify.run c es).1 (.data name (some v) [])).1.dead = false ∧
      (Notify.step c (Notify.run c es).1 (.data name (some v) [])).1.hasSub = true := by
    have i := Notify.inv_run c es alive
    have hp : (Notify.run c es).1.pending = some r := by rw [← Notify.outstanding_run alive]; exact hr
    have hrun : (Notify.run c es).1.running = true := i.own (by rw [hp]; rfl)
    have g : Notify.Going { (Notify.run c es).1 with pending := none } := ⟨hrun, Or.inl hs⟩
    have g' : Notify.Going { (Notify.run c es).1 with pending := none, last := n } := g
    obtain ⟨x, hl, hx⟩ : ∃ x, name.getLast? = some x ∧ Conv.sequence.to c.conv x = some n := by
      unfold Notify.Spec.seqOf at hn
      cases hl : name.getLast? with
      | none => rw [hl] at hn; cases hn
      | some x => rw [hl] at hn; exact ⟨x, rfl, hn⟩
    rw [Notify.step_alive alive]
    simp only [Notify.act, hp]
    rw [Notify.afterData_going c _ _ _ _ g, hl]
    dsimp only
    rw [hx]
    dsimp only
    rw [if_pos hs]
    simp only [Notify.emit, Notify.calls, List.append_nil]
    rw [Notify.sendNext_eq, if_pos g']
    exact ⟨alive, hs⟩
  rw [Notify.run_snoc]
  refine ⟨h0.1, h0.2, ?_, ?_⟩
  · dsimp only
    rw [Notify.outstanding_snoc, hd]
    rfl
  · dsimp only
    rw [hd]
    simp [heard]

/-- **C141**: from any moment at which a subscriber with a handler has an outstanding Interest: if this Interest and the following
ones are each answered by a packet posted in the stream, received as octets, then the handler gets consecutive notifications of the
stream, in the order in which they were posted, none twice and none left out; and the first is the one the Interest asked for, if it
asked for a particular one. As in C83 no stream may be registered twice. -/
theorem C141_stream_partial (p : Segmenter.Params) (hs : Mgmt.Consistent p.settings) (es : List Mgmt.Ev) (hl : es.length < 2 ^ 64)
    (hf : Mgmt.FreshStreams es (Mgmt.logOf p.settings es)) (c : Notify.Cfg) (hc : c.conv = p.settings) (dec : Bytes → Option Nat)
    (hdec : ∀ x ∈ posted c.pfx (Mgmt.logOf p.settings es), (dec x.2).isSome)
    (past : List Notify.Ev) (alive : (Notify.run c past).1.dead = false) (hsub : (Notify.run c past).1.hasSub = true)
    (wires : List Bytes) (hw : ∀ w ∈ wires, FromStream p c.pfx (Mgmt.logOf p.settings es) w)
    (ha : ∀ a w b, wires = a ++ w :: b → ∃ r name note,
      Notify.Spec.outstanding (Notify.run c (past ++ a.filterMap (hear dec))).2 = some r ∧
      hear dec w = some (.data name note []) ∧ Matches r name) :
    ∃ k, k + wires.length ≤ (posted c.pfx (Mgmt.logOf p.settings es)).length ∧
      (heard (Notify.run c (past ++ wires.filterMap (hear dec))).2).map some =
        (heard (Notify.run c past).2).map some ++
          (((posted c.pfx (Mgmt.logOf p.settings es)).drop k).take wires.length).map (fun x => dec x.2) ∧
      (∀ n, wires ≠ [] → n < 2 ^ 64 → Notify.Spec.outstanding (Notify.run c past).2 = some (Notify.Spec.numberedReq c n) → k = n) ∧
      (wires ≠ [] → Notify.Spec.outstanding (Notify.run c (past ++ wires.filterMap (hear dec))).2 =
        some (Notify.Spec.numberedReq c (k + wires.length))) := by
  have hnames := Mgmt.C83_consecutive_partial p.settings es c.pfx hl hf
  rw [← posted_names] at hnames
  have hcount : (posted c.pfx (Mgmt.logOf p.settings es)).length ≤ es.length := by
    refine Nat.le_trans (List.length_filterMap_le _ _) ?_
    unfold Mgmt.logOf
    rw [List.length_zip]
    exact Nat.min_le_left _ _
  generalize hX : posted c.pfx (Mgmt.logOf p.settings es) = X at *
  have hname : ∀ j x, X[j]? = some x → x.1.name = c.pfx ++ [Name.Spec.convComp p.settings.encodeMarker .sequence j] := by
    intro j x hj
    have h1 : (X.map (fun x => x.1.name))[j]? = some x.1.name := by rw [List.getElem?_map, hj]; rfl
    have hlt : j < X.length := (List.getElem?_eq_some_iff.mp hj).1
    rw [hnames] at h1
    rw [List.getElem?_map, List.getElem?_range (by simpa using hlt)] at h1
    simpa using h1.symm
  -- with the state of the subscriber
  have key : ∃ k, k + wires.length ≤ X.length ∧
      (heard (Notify.run c (past ++ wires.filterMap (hear dec))).2).map some =
        (heard (Notify.run c past).2).map some ++ ((X.drop k).take wires.length).map (fun x => dec x.2) ∧
      (∀ n, wires ≠ [] → n < 2 ^ 64 → Notify.Spec.outstanding (Notify.run c past).2 = some (Notify.Spec.numberedReq c n) → k = n) ∧
      (wires ≠ [] → Notify.Spec.outstanding (Notify.run c (past ++ wires.filterMap (hear dec))).2 =
        some (Notify.Spec.numberedReq c (k + wires.length))) ∧
      (Notify.run c (past ++ wires.filterMap (hear dec))).1.dead = false ∧
      (Notify.run c (past ++ wires.filterMap (hear dec))).1.hasSub = true := by
    induction wires using Ndn.Replay.snocInd with
    | nil => exact ⟨0, by simp, by simp, by simp, by simp, by simpa using alive, by simpa using hsub⟩
    | snoc ws w ih =>
      obtain ⟨k, k1, k2, k3, k4, k5, k6⟩ := ih (fun w' h => hw w' (by simp [h])) (fun a w' b h => ha a w' (b ++ [w]) (by simp [h]))
      obtain ⟨x, hx, f, f1, f2, f3⟩ := hw w (by simp)
      have hear1 := hear_posted hs dec hx f1 f2 f3
      rw [hX] at hx
      obtain ⟨j, hj⟩ := List.mem_iff_getElem?.mp hx
      have hjn := hname j x hj
      have hjl : j < X.length := (List.getElem?_eq_some_iff.mp hj).1
      obtain ⟨v, hv⟩ := Option.isSome_iff_exists.mp (hdec x hx)
      obtain ⟨r, name, note, a1, a2, a3⟩ := ha ws w [] rfl
      rw [hear1] at a2
      simp only [Option.some.injEq, Notify.Ev.data.injEq, and_true] at a2
      obtain ⟨rfl, rfl⟩ := a2
      have hseq : Notify.Spec.seqOf c x.1.name = some j := by
        unfold Notify.Spec.seqOf
        rw [hjn, List.getLast?_concat, hc]
        exact seq_to _ hs j (by omega)
      have hfm : (ws ++ [w]).filterMap (hear dec) = ws.filterMap (hear dec) ++ [.data x.1.name (some v) []] := by
        rw [List.filterMap_append]
        simp [hear1, hv]
      obtain ⟨s1, s2, s3, s4⟩ := hear_step c (past ++ ws.filterMap (hear dec)) x.1.name j v r k5 a1 k6 hseq
      rw [List.append_assoc, ← hfm] at s1 s2 s3 s4
      -- a numbered Interest is answered by the notification of this number
      have hnum : ∀ n, n < 2 ^ 64 → r = Notify.Spec.numberedReq c n → j = n := by
        rintro n hn rfl
        have h1 : c.pfx ++ [Name.Spec.convComp c.conv.encodeMarker .sequence n] = x.1.name := by
          unfold Matches at a3
          rw [if_neg (by simp [Notify.Spec.numberedReq])] at a3
          exact a3
        rw [hjn, hc] at h1
        have h2 : Name.Spec.convComp p.settings.encodeMarker .sequence n = Name.Spec.convComp p.settings.encodeMarker .sequence j := by
          simpa using h1
        have h3 := seq_to p.settings hs n hn
        rw [h2, seq_to p.settings hs j (by omega)] at h3
        simpa using h3
      rw [Nat.mod_eq_of_lt (by omega)] at s3
      by_cases hw0 : ws = []
      · subst hw0
        refine ⟨j, ?_, ?_, ?_, ?_, s1, s2⟩
        · simp only [List.length_append, List.length_nil, List.length_singleton]; omega
        · rw [s4]
          have : (X.drop j).take 1 = [x] := by
            rw [List.drop_eq_getElem_cons hjl]
            have := (List.getElem?_eq_some_iff.mp hj).2
            simp [this]
          simp [this, hv]
        · intro n _ hn h
          simp only [List.filterMap_nil, List.append_nil] at a1
          rw [a1] at h
          exact hnum n hn (by simpa using h)
        · intro _; rw [s3]; simp
      · have hjk : j = k + ws.length := by
          have := k4 hw0
          rw [a1] at this
          exact hnum _ (by omega) (by simpa using this)
        refine ⟨k, ?_, ?_, ?_, ?_, s1, s2⟩
        · simp only [List.length_append, List.length_singleton]; omega
        · rw [s4, List.map_append, k2, List.length_append, List.length_singleton, List.append_assoc]
          congr 1
          rw [List.take_add_one, List.getElem?_drop, ← hjk, hj]
          simp [hv]
        · intro n _ hn h; exact k3 n hw0 hn h
        · intro _; rw [s3, hjk]; simp [Nat.add_assoc]
  obtain ⟨k, k1, k2, k3, k4, _⟩ := key
  exact ⟨k, k1, k2, k3, k4⟩

/-! Example: three notifications are posted; the subscriber starts late and gets the second and third. -/

def exPosts : List Mgmt.Ev :=
  [.addHandler [⟨8, [101]⟩] .stream, .addTop [⟨8, [97]⟩],
   .post [⟨8, [101]⟩] [9], .post [⟨8, [101]⟩] [10], .post [⟨8, [101]⟩] [11]]

def exNote (n : UInt8) (b : UInt8) : DFields :=
  ⟨[⟨8, [97]⟩, ⟨8, [101]⟩, ⟨58, [n]⟩], ⟨0, 1000, none, []⟩, some (binaryBlock 21 [b]), ⟨some 0, none, []⟩, some (binaryBlock 23 [7])⟩

theorem ex_posted : posted [⟨8, [97]⟩, ⟨8, [101]⟩] (Mgmt.logOf exParams.settings exPosts) =
    [(⟨[⟨8, [97]⟩, ⟨8, [101]⟩, ⟨58, [0]⟩], .bytes [9], false, none⟩, [9]),
     (⟨[⟨8, [97]⟩, ⟨8, [101]⟩, ⟨58, [1]⟩], .bytes [10], false, none⟩, [10]),
     (⟨[⟨8, [97]⟩, ⟨8, [101]⟩, ⟨58, [2]⟩], .bytes [11], false, none⟩, [11])] := by rfl

theorem exNote_sent : sendData exParams ⟨[⟨8, [97]⟩, ⟨8, [101]⟩, ⟨58, [1]⟩], .bytes [10], false, none⟩ = some (exNote 1 10) ∧
    sendData exParams ⟨[⟨8, [97]⟩, ⟨8, [101]⟩, ⟨58, [2]⟩], .bytes [11], false, none⟩ = some (exNote 2 11) := by decide +kernel

def exNoteWire (n b : UInt8) : Bytes := ((exNote n b).encode).getD []

theorem exNote_wf : DataWF (exNote 1 10) ∧ DataWF (exNote 2 11) := by
  have hsig : SigWF ⟨some 0, none, []⟩ := sampleData_wf.sigInfo
  constructor
  all_goals
    refine ⟨?_, ⟨by decide, by decide, ?_, ?_, by decide⟩, ?_, hsig, ⟨_, rfl, binaryBlock_wf (by decide) (by decide) (by decide), rfl⟩, ?_⟩
    · unfold Ndn.Packet.Spec.NameWF; decide
    · intro c hc; simp [exNote] at hc
    · intro b hb; simp [exNote] at hb
    · intro c hc
      simp only [exNote, Option.some.injEq] at hc; subst hc
      exact ⟨binaryBlock_wf (by decide) (by decide) (by decide), rfl⟩
    · intro w hw
      have h1 : ((exNote 1 10).encode.map List.length) = some 30 := by decide
      have h2 : ((exNote 2 11).encode.map List.length) = some 30 := by decide
      rw [hw] at *
      simp at h1 h2
      omega

theorem exNoteWire_encode : (exNote 1 10).encode = some (exNoteWire 1 10) ∧ (exNote 2 11).encode = some (exNoteWire 2 11) := by decide

def exSub : Notify.Cfg := ⟨[⟨8, [97]⟩, ⟨8, [101]⟩], 60000, exParams.settings⟩

def exDec (b : Bytes) : Option Nat := b.head?.map UInt8.toNat

theorem ex_hear : hear exDec (exNoteWire 1 10) = some (.data [⟨8, [97]⟩, ⟨8, [101]⟩, ⟨58, [1]⟩] (some 10) []) ∧
    hear exDec (exNoteWire 2 11) = some (.data [⟨8, [97]⟩, ⟨8, [101]⟩, ⟨58, [2]⟩] (some 11) []) := by
  have m := ex_posted
  exact ⟨hear_posted (p := exParams) rfl exDec (x := (⟨[⟨8, [97]⟩, ⟨8, [101]⟩, ⟨58, [1]⟩], .bytes [10], false, none⟩, [10])) (by rw [ex_posted]; simp)
      exNote_sent.1 exNote_wf.1 exNoteWire_encode.1,
    hear_posted (p := exParams) rfl exDec (x := (⟨[⟨8, [97]⟩, ⟨8, [101]⟩, ⟨58, [2]⟩], .bytes [11], false, none⟩, [11])) (by rw [ex_posted]; simp)
      exNote_sent.2 exNote_wf.2 exNoteWire_encode.2⟩

example := C141_stream_partial exParams rfl exPosts (by decide)
  (Mgmt.C83_register_first exParams.settings (exPosts.take 2) (exPosts.drop 2)
    (by intro e he r b; simp [exPosts] at he; rcases he with rfl | rfl <;> simp)
    (by intro e he r; simp [exPosts] at he; rcases he with rfl | rfl | rfl <;> simp))
  exSub rfl exDec
  (by
    intro x hx
    rw [show exSub.pfx = [⟨8, [97]⟩, ⟨8, [101]⟩] from rfl, ex_posted] at hx
    simp at hx
    rcases hx with rfl | rfl | rfl <;> rfl)
  [.call (.subscribe true), .call .start] rfl rfl [exNoteWire 1 10, exNoteWire 2 11]
  (by
    intro w hw
    simp only [List.mem_cons, List.not_mem_nil, or_false] at hw
    rcases hw with rfl | rfl
    · exact ⟨(⟨[⟨8, [97]⟩, ⟨8, [101]⟩, ⟨58, [1]⟩], .bytes [10], false, none⟩, [10]), by rw [show exSub.pfx = [⟨8, [97]⟩, ⟨8, [101]⟩] from rfl, ex_posted]; simp, _,
        exNote_sent.1, exNote_wf.1, exNoteWire_encode.1⟩
    · exact ⟨(⟨[⟨8, [97]⟩, ⟨8, [101]⟩, ⟨58, [2]⟩], .bytes [11], false, none⟩, [11]), by rw [show exSub.pfx = [⟨8, [97]⟩, ⟨8, [101]⟩] from rfl, ex_posted]; simp, _,
        exNote_sent.2, exNote_wf.2, exNoteWire_encode.2⟩)
  (by
    intro a w b h
    rcases a with _ | ⟨a1, _ | ⟨a2, a⟩⟩
    · simp only [List.nil_append, List.cons.injEq] at h
      obtain ⟨rfl, _⟩ := h
      exact ⟨Notify.Spec.initialReq exSub, _, _, rfl, ex_hear.1, by unfold Matches; decide⟩
    · simp only [List.cons_append, List.nil_append, List.cons.injEq] at h
      obtain ⟨rfl, rfl, _⟩ := h
      refine ⟨Notify.Spec.numberedReq exSub 2, _, _, ?_, ex_hear.2, by unfold Matches; decide⟩
      simp only [List.filterMap_cons, ex_hear.1, List.filterMap_nil]
      rfl
    · simp at h)

end Ndn.Flow
