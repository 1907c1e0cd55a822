import Verif.Nfd.ItemsLemmas2
/-
C85: control responses. C86: the items of the NFD status datasets and notifications. C87: face query filters.
For each structure: what decoding accepts and yields, that encoding and decoding give the fields back, that this holds
after every history of setters, encodings and decodings, and which field each setter changes.
-/
namespace Ndn.Nfd
open Tlv Tlv.Spec Block Block.Spec Name Packet Packet.Spec Mgmt

/-! ### A control response -/

/-- Decoding an element as a control response: it succeeds exactly when the element has the right type and its value is a sequence of
elements that follow the grammar; the fields are then what the grammar says. -/
theorem C85_decode (o : Obj Response) (b : Raw) (w : Option Raw) (s : Response) :
    Response.codec.wireDecode o b = (.ok, ⟨w, s⟩) ↔ w = some b ∧ b.type = 101 ∧ ∃ es, ReadsAs b.value es ∧ Response.Means es s :=
  wireDecode_iff _ _ Response.sound.fill o ⟨w, s⟩ b

/-- Encoding a control response and decoding it, into any object, give back the same fields; the encoding is one element. -/
theorem C85_roundtrip (s : Response) (h : s.Ok) (o : Obj Response) : RawWF (Response.codec.encode s) ∧
    Response.codec.wireDecode o (Response.codec.encode s) = (.ok, ⟨some (Response.codec.encode s), s⟩) :=
  ⟨Response.sound.element s h, Response.sound.roundtrip s h o⟩

/-- After any history of setters, encodings and decodings that do not throw, what `wireEncode` returns decodes to the
current fields: no stale encoding is ever returned. -/
theorem C85_history (ops : List (Op Response.Set)) (o : Obj Response)
    (h : Response.codec.run Response.apply ops ⟨none, {}⟩ = some o) (ok : o.v.Ok) (o1 : Obj Response) :
    Response.codec.wireDecode o1 (Response.codec.wireEncode o).2 = (.ok, ⟨some (Response.codec.wireEncode o).2, o.v⟩) :=
  Response.sound.history Response.apply ops {} o h ok o1

/-- Each setter changes what its own getter returns, as asked, and nothing else. -/
theorem C85_setters (x : Response.Set) (s : Response) : (Response.apply x s).shown = s.shown.set (Response.target x).1 (Response.target x).2 :=
  by cases x <;> rfl

/-! ### A channel status -/

/-- Decoding an element as a channel status: it succeeds exactly when the element has the right type and its value is a sequence of
elements that follow the grammar; the fields are then what the grammar says. -/
theorem C86_channel_decode (o : Obj Channel) (b : Raw) (w : Option Raw) (s : Channel) :
    Channel.codec.wireDecode o b = (.ok, ⟨w, s⟩) ↔ w = some b ∧ b.type = 130 ∧ ∃ es, ReadsAs b.value es ∧ Laid es s.grammar :=
  wireDecode_iff _ _ Channel.sound.fill o ⟨w, s⟩ b

/-- Encoding a channel status and decoding it, into any object, give back the same fields; the encoding is one element. -/
theorem C86_channel_roundtrip (s : Channel) (h : s.Ok) (o : Obj Channel) : RawWF (Channel.codec.encode s) ∧
    Channel.codec.wireDecode o (Channel.codec.encode s) = (.ok, ⟨some (Channel.codec.encode s), s⟩) :=
  ⟨Channel.sound.element s h, Channel.sound.roundtrip s h o⟩

/-- After any history of setters, encodings and decodings that do not throw, what `wireEncode` returns decodes to the
current fields: no stale encoding is ever returned. -/
theorem C86_channel_history (ops : List (Op Channel.Set)) (o : Obj Channel)
    (h : Channel.codec.run Channel.apply ops ⟨none, {}⟩ = some o) (ok : o.v.Ok) (o1 : Obj Channel) :
    Channel.codec.wireDecode o1 (Channel.codec.wireEncode o).2 = (.ok, ⟨some (Channel.codec.wireEncode o).2, o.v⟩) :=
  Channel.sound.history Channel.apply ops {} o h ok o1

/-- Each setter changes what its own getter returns, as asked, and nothing else. -/
theorem C86_channel_setters (x : Channel.Set) (s : Channel) : (Channel.apply x s).shown = s.shown.set (Channel.target x).1 (Channel.target x).2 :=
  by cases x <;> rfl

/-! ### CS information -/

/-- Decoding an element as CS information: it succeeds exactly when the element has the right type and its value is a sequence of
elements that follow the grammar; the fields are then what the grammar says. -/
theorem C86_cs_decode (o : Obj CsInfo) (b : Raw) (w : Option Raw) (s : CsInfo) :
    CsInfo.codec.wireDecode o b = (.ok, ⟨w, s⟩) ↔ w = some b ∧ b.type = 128 ∧ ∃ es, ReadsAs b.value es ∧ Laid es s.grammar :=
  wireDecode_iff _ _ CsInfo.sound.fill o ⟨w, s⟩ b

/-- Encoding CS information and decoding it, into any object, give back the same fields; the encoding is one element. -/
theorem C86_cs_roundtrip (s : CsInfo) (h : s.Ok) (o : Obj CsInfo) : RawWF (CsInfo.codec.encode s) ∧
    CsInfo.codec.wireDecode o (CsInfo.codec.encode s) = (.ok, ⟨some (CsInfo.codec.encode s), s⟩) :=
  ⟨CsInfo.sound.element s h, CsInfo.sound.roundtrip s h o⟩

/-- After any history of setters, encodings and decodings that do not throw, what `wireEncode` returns decodes to the
current fields: no stale encoding is ever returned. -/
theorem C86_cs_history (ops : List (Op CsInfo.Set)) (o : Obj CsInfo)
    (h : CsInfo.codec.run CsInfo.apply ops ⟨none, {}⟩ = some o) (ok : o.v.Ok) (o1 : Obj CsInfo) :
    CsInfo.codec.wireDecode o1 (CsInfo.codec.wireEncode o).2 = (.ok, ⟨some (CsInfo.codec.wireEncode o).2, o.v⟩) :=
  CsInfo.sound.history CsInfo.apply ops {} o h ok o1

/-- Each setter changes what its own getter returns, as asked, and nothing else. -/
theorem C86_cs_setters (x : CsInfo.Set) (s : CsInfo) : (CsInfo.apply x s).shown = s.shown.set (CsInfo.target x).1 (CsInfo.target x).2 :=
  by cases x <;> rfl

/-! ### A face event notification -/

/-- Decoding an element as a face event notification: it succeeds exactly when the element has the right type and its value is a sequence of
elements that follow the grammar; the fields are then what the grammar says. -/
theorem C86_face_event_decode (o : Obj FaceEvent) (b : Raw) (w : Option Raw) (s : FaceEvent) :
    FaceEvent.codec.wireDecode o b = (.ok, ⟨w, s⟩) ↔ w = some b ∧ b.type = 192 ∧ ∃ es, ReadsAs b.value es ∧ Laid es s.grammar :=
  wireDecode_iff _ _ FaceEvent.sound.fill o ⟨w, s⟩ b

/-- Encoding a face event notification and decoding it, into any object, give back the same fields; the encoding is one element. -/
theorem C86_face_event_roundtrip (s : FaceEvent) (h : s.Ok) (o : Obj FaceEvent) : RawWF (FaceEvent.codec.encode s) ∧
    FaceEvent.codec.wireDecode o (FaceEvent.codec.encode s) = (.ok, ⟨some (FaceEvent.codec.encode s), s⟩) :=
  ⟨FaceEvent.sound.element s h, FaceEvent.sound.roundtrip s h o⟩

/-- After any history of setters, encodings and decodings that do not throw, what `wireEncode` returns decodes to the
current fields: no stale encoding is ever returned. -/
theorem C86_face_event_history (ops : List (Op FaceEvent.Set)) (o : Obj FaceEvent)
    (h : FaceEvent.codec.run FaceEvent.apply ops ⟨none, {}⟩ = some o) (ok : o.v.Ok) (o1 : Obj FaceEvent) :
    FaceEvent.codec.wireDecode o1 (FaceEvent.codec.wireEncode o).2 = (.ok, ⟨some (FaceEvent.codec.wireEncode o).2, o.v⟩) :=
  FaceEvent.sound.history FaceEvent.apply ops {} o h ok o1

/-- Each setter changes what its own getter returns, as asked, and nothing else. -/
theorem C86_face_event_setters (x : FaceEvent.Set) (s : FaceEvent) : (FaceEvent.apply x s).shown = s.shown.set (FaceEvent.target x).1 (FaceEvent.target x).2 :=
  by cases x <;> rfl

/-! ### A face status -/

/-- Decoding an element as a face status: it succeeds exactly when the element has the right type and its value is a sequence of
elements that follow the grammar; the fields are then what the grammar says. -/
theorem C86_face_status_decode (o : Obj FaceStatus) (b : Raw) (w : Option Raw) (s : FaceStatus) :
    FaceStatus.codec.wireDecode o b = (.ok, ⟨w, s⟩) ↔ w = some b ∧ b.type = 128 ∧ ∃ es, ReadsAs b.value es ∧ Laid es s.grammar :=
  wireDecode_iff _ _ FaceStatus.sound.fill o ⟨w, s⟩ b

/-- Encoding a face status and decoding it, into any object, give back the same fields; the encoding is one element. -/
theorem C86_face_status_roundtrip (s : FaceStatus) (h : s.Ok) (o : Obj FaceStatus) : RawWF (FaceStatus.codec.encode s) ∧
    FaceStatus.codec.wireDecode o (FaceStatus.codec.encode s) = (.ok, ⟨some (FaceStatus.codec.encode s), s⟩) :=
  ⟨FaceStatus.sound.element s h, FaceStatus.sound.roundtrip s h o⟩

/-- After any history of setters, encodings and decodings that do not throw, what `wireEncode` returns decodes to the
current fields: no stale encoding is ever returned. -/
theorem C86_face_status_history (ops : List (Op FaceStatus.Set)) (o : Obj FaceStatus)
    (h : FaceStatus.codec.run FaceStatus.apply ops ⟨none, {}⟩ = some o) (ok : o.v.Ok) (o1 : Obj FaceStatus) :
    FaceStatus.codec.wireDecode o1 (FaceStatus.codec.wireEncode o).2 = (.ok, ⟨some (FaceStatus.codec.wireEncode o).2, o.v⟩) :=
  FaceStatus.sound.history FaceStatus.apply ops {} o h ok o1

/-- Each setter changes what its own getter returns, as asked, and nothing else. -/
theorem C86_face_status_setters (x : FaceStatus.Set) (s : FaceStatus) : (FaceStatus.apply x s).shown = s.shown.set (FaceStatus.target x).1 (FaceStatus.target x).2 :=
  by cases x <;> rfl

/-! ### A next hop record -/

/-- Decoding an element as a next hop record: it succeeds exactly when the element has the right type and its value is a sequence of
elements that follow the grammar; the fields are then what the grammar says. -/
theorem C86_next_hop_decode (o : Obj NextHop) (b : Raw) (w : Option Raw) (s : NextHop) :
    NextHop.codec.wireDecode o b = (.ok, ⟨w, s⟩) ↔ w = some b ∧ b.type = 129 ∧ ∃ es, ReadsAs b.value es ∧ Laid es s.grammar :=
  wireDecode_iff _ _ NextHop.sound.fill o ⟨w, s⟩ b

/-- Encoding a next hop record and decoding it, into any object, give back the same fields; the encoding is one element. -/
theorem C86_next_hop_roundtrip (s : NextHop) (h : s.Ok) (o : Obj NextHop) : RawWF (NextHop.codec.encode s) ∧
    NextHop.codec.wireDecode o (NextHop.codec.encode s) = (.ok, ⟨some (NextHop.codec.encode s), s⟩) :=
  ⟨NextHop.sound.element s h, NextHop.sound.roundtrip s h o⟩

/-- After any history of setters, encodings and decodings that do not throw, what `wireEncode` returns decodes to the
current fields: no stale encoding is ever returned. -/
theorem C86_next_hop_history (ops : List (Op NextHop.Set)) (o : Obj NextHop)
    (h : NextHop.codec.run NextHop.apply ops ⟨none, {}⟩ = some o) (ok : o.v.Ok) (o1 : Obj NextHop) :
    NextHop.codec.wireDecode o1 (NextHop.codec.wireEncode o).2 = (.ok, ⟨some (NextHop.codec.wireEncode o).2, o.v⟩) :=
  NextHop.sound.history NextHop.apply ops {} o h ok o1

/-- Each setter changes what its own getter returns, as asked, and nothing else. -/
theorem C86_next_hop_setters (x : NextHop.Set) (s : NextHop) : (NextHop.apply x s).shown = s.shown.set (NextHop.target x).1 (NextHop.target x).2 :=
  by cases x <;> rfl

/-! ### A FIB entry -/

/-- Decoding an element as a FIB entry: it succeeds exactly when the element has the right type and its value is a sequence of
elements that follow the grammar; the fields are then what the grammar says. -/
theorem C86_fib_decode (o : Obj Fib) (b : Raw) (w : Option Raw) (s : Fib) :
    Fib.codec.wireDecode o b = (.ok, ⟨w, s⟩) ↔ w = some b ∧ b.type = 128 ∧ ∃ es, ReadsAs b.value es ∧ Fib.Means es s :=
  wireDecode_iff _ _ Fib.sound.fill o ⟨w, s⟩ b

/-- Encoding a FIB entry and decoding it, into any object, give back the same fields; the encoding is one element. -/
theorem C86_fib_roundtrip (s : Fib) (h : s.Ok) (o : Obj Fib) : RawWF (Fib.codec.encode s) ∧
    Fib.codec.wireDecode o (Fib.codec.encode s) = (.ok, ⟨some (Fib.codec.encode s), s⟩) :=
  ⟨Fib.sound.element s h, Fib.sound.roundtrip s h o⟩

/-- After any history of setters, encodings and decodings that do not throw, what `wireEncode` returns decodes to the
current fields: no stale encoding is ever returned. -/
theorem C86_fib_history (ops : List (Op Fib.Set)) (o : Obj Fib)
    (h : Fib.codec.run Fib.apply ops ⟨none, {}⟩ = some o) (ok : o.v.Ok) (o1 : Obj Fib) :
    Fib.codec.wireDecode o1 (Fib.codec.wireEncode o).2 = (.ok, ⟨some (Fib.codec.wireEncode o).2, o.v⟩) :=
  Fib.sound.history Fib.apply ops {} o h ok o1

/-- After any sequence of setters the records are those added since the last clearing, in the order of the calls. -/
theorem C86_fib_setters (xs : List Fib.Set) : ∀ s : Fib, (xs.foldl (fun s x => Fib.apply x s) s).hops = Fib.added s.hops xs := by
  induction xs with
  | nil => intro s; rfl
  | cons x xs ih => intro s; cases x <;> exact ih _

/-! ### A route -/

/-- Decoding an element as a route: it succeeds exactly when the element has the right type and its value is a sequence of
elements that follow the grammar; the fields are then what the grammar says. -/
theorem C86_route_decode (o : Obj Route) (b : Raw) (w : Option Raw) (s : Route) :
    Route.codec.wireDecode o b = (.ok, ⟨w, s⟩) ↔ w = some b ∧ b.type = 129 ∧ ∃ es, ReadsAs b.value es ∧ Laid es s.grammar :=
  wireDecode_iff _ _ Route.sound.fill o ⟨w, s⟩ b

/-- Encoding a route and decoding it, into any object, give back the same fields; the encoding is one element. -/
theorem C86_route_roundtrip (s : Route) (h : s.Ok) (o : Obj Route) : RawWF (Route.codec.encode s) ∧
    Route.codec.wireDecode o (Route.codec.encode s) = (.ok, ⟨some (Route.codec.encode s), s⟩) :=
  ⟨Route.sound.element s h, Route.sound.roundtrip s h o⟩

/-- After any history of setters, encodings and decodings that do not throw, what `wireEncode` returns decodes to the
current fields: no stale encoding is ever returned. -/
theorem C86_route_history (ops : List (Op Route.Set)) (o : Obj Route)
    (h : Route.codec.run Route.apply ops ⟨none, {}⟩ = some o) (ok : o.v.Ok) (o1 : Obj Route) :
    Route.codec.wireDecode o1 (Route.codec.wireEncode o).2 = (.ok, ⟨some (Route.codec.wireEncode o).2, o.v⟩) :=
  Route.sound.history Route.apply ops {} o h ok o1

/-- Each setter changes what its own getter returns, as asked, and nothing else. -/
theorem C86_route_setters (x : Route.Set) (s : Route) : (Route.apply x s).shown = s.shown.set (Route.target x).1 (Route.target x).2 :=
  by
  cases x with
  | expiration d =>
    simp only [Route.apply, Route.target, Route.shown]
    by_cases hd : d = 2 ^ 63 - 1
    · rw [if_pos hd, if_pos hd]; rfl
    · rw [if_neg hd, if_neg hd]; rfl
  | _ => rfl

/-! ### A RIB entry -/

/-- Decoding an element as a RIB entry: it succeeds exactly when the element has the right type and its value is a sequence of
elements that follow the grammar; the fields are then what the grammar says. -/
theorem C86_rib_decode (o : Obj Rib) (b : Raw) (w : Option Raw) (s : Rib) :
    Rib.codec.wireDecode o b = (.ok, ⟨w, s⟩) ↔ w = some b ∧ b.type = 128 ∧ ∃ es, ReadsAs b.value es ∧ Rib.Means es s :=
  wireDecode_iff _ _ Rib.sound.fill o ⟨w, s⟩ b

/-- Encoding a RIB entry and decoding it, into any object, give back the same fields; the encoding is one element. -/
theorem C86_rib_roundtrip (s : Rib) (h : s.Ok) (o : Obj Rib) : RawWF (Rib.codec.encode s) ∧
    Rib.codec.wireDecode o (Rib.codec.encode s) = (.ok, ⟨some (Rib.codec.encode s), s⟩) :=
  ⟨Rib.sound.element s h, Rib.sound.roundtrip s h o⟩

/-- After any history of setters, encodings and decodings that do not throw, what `wireEncode` returns decodes to the
current fields: no stale encoding is ever returned. -/
theorem C86_rib_history (ops : List (Op Rib.Set)) (o : Obj Rib)
    (h : Rib.codec.run Rib.apply ops ⟨none, {}⟩ = some o) (ok : o.v.Ok) (o1 : Obj Rib) :
    Rib.codec.wireDecode o1 (Rib.codec.wireEncode o).2 = (.ok, ⟨some (Rib.codec.wireEncode o).2, o.v⟩) :=
  Rib.sound.history Rib.apply ops {} o h ok o1

/-- After any sequence of setters the records are those added since the last clearing, in the order of the calls. -/
theorem C86_rib_setters (xs : List Rib.Set) : ∀ s : Rib, (xs.foldl (fun s x => Rib.apply x s) s).routes = Rib.added s.routes xs := by
  induction xs with
  | nil => intro s; rfl
  | cons x xs ih => intro s; cases x <;> exact ih _

/-! ### A strategy choice -/

/-- Decoding an element as a strategy choice: it succeeds exactly when the element has the right type and its value is a sequence of
elements that follow the grammar; the fields are then what the grammar says. -/
theorem C86_choice_decode (o : Obj Choice) (b : Raw) (w : Option Raw) (s : Choice) :
    Choice.codec.wireDecode o b = (.ok, ⟨w, s⟩) ↔ w = some b ∧ b.type = 128 ∧ ∃ es, ReadsAs b.value es ∧ Laid es s.grammar :=
  wireDecode_iff _ _ Choice.sound.fill o ⟨w, s⟩ b

/-- Encoding a strategy choice and decoding it, into any object, give back the same fields; the encoding is one element. -/
theorem C86_choice_roundtrip (s : Choice) (h : s.Ok) (o : Obj Choice) : RawWF (Choice.codec.encode s) ∧
    Choice.codec.wireDecode o (Choice.codec.encode s) = (.ok, ⟨some (Choice.codec.encode s), s⟩) :=
  ⟨Choice.sound.element s h, Choice.sound.roundtrip s h o⟩

/-- After any history of setters, encodings and decodings that do not throw, what `wireEncode` returns decodes to the
current fields: no stale encoding is ever returned. -/
theorem C86_choice_history (ops : List (Op Choice.Set)) (o : Obj Choice)
    (h : Choice.codec.run Choice.apply ops ⟨none, {}⟩ = some o) (ok : o.v.Ok) (o1 : Obj Choice) :
    Choice.codec.wireDecode o1 (Choice.codec.wireEncode o).2 = (.ok, ⟨some (Choice.codec.wireEncode o).2, o.v⟩) :=
  Choice.sound.history Choice.apply ops {} o h ok o1

/-- Each setter changes what its own getter returns, as asked, and nothing else. -/
theorem C86_choice_setters (x : Choice.Set) (s : Choice) : (Choice.apply x s).shown = s.shown.set (Choice.target x).1 (Choice.target x).2 :=
  by cases x <;> rfl

/-! ### A forwarder status -/

/-- Decoding an element as a forwarder status: it succeeds exactly when the element has the right type and its value is a sequence of
elements that follow the grammar; the fields are then what the grammar says. -/
theorem C86_forwarder_decode (o : Obj Forwarder) (b : Raw) (w : Option Raw) (s : Forwarder) :
    Forwarder.codec.wireDecode o b = (.ok, ⟨w, s⟩) ↔ w = some b ∧ b.type = 21 ∧ ∃ es, ReadsAs b.value es ∧ Laid es s.grammar :=
  wireDecode_iff _ _ Forwarder.sound.fill o ⟨w, s⟩ b

/-- Encoding a forwarder status and decoding it, into any object, give back the same fields with the time points in whole
milliseconds; the encoding is one element. -/
theorem C86_forwarder_roundtrip_partial (s : Forwarder) (h : s.Ok) (o : Obj Forwarder) : RawWF (Forwarder.codec.encode s) ∧
    Forwarder.codec.wireDecode o (Forwarder.codec.encode s) = (.ok, ⟨some (Forwarder.codec.encode s),
      { s with start := toMs s.start * 1000000, current := toMs s.current * 1000000 }⟩) :=
  ⟨Forwarder.sound.element s h, Forwarder.sound.roundtrip s h o⟩

/-- The claim: the same fields. -/
def C86_forwarder_roundtrip_claim : Prop := ∀ s : Forwarder, s.Ok → ∀ o : Obj Forwarder,
  (Forwarder.codec.wireDecode o (Forwarder.codec.encode s)).2.v = s

/-- It is false: what is below a millisecond is lost. -/
theorem C86_forwarder_roundtrip_counterexample : ¬ C86_forwarder_roundtrip_claim := by
  intro h
  have hk : ({ start := 1 } : Forwarder).Ok := by
    refine ⟨?_, ?_, ?_, ?_, ?_, ?_, ?_, ?_, ?_, ?_, ?_, ?_, ?_, ?_, ?_, ?_⟩ <;> first | decide | (simp only [I64, U64]; decide)
  have := h _ hk ⟨none, {}⟩
  rw [Forwarder.sound.roundtrip _ hk] at this
  exact absurd (congrArg (·.start) this) (by decide)

/-- The claim: decoding succeeds or throws. -/
def C86_forwarder_decode_claim : Prop := ∀ (o : Obj Forwarder) (b : Raw), RawWF b → (Forwarder.codec.wireDecode o b).1 ≠ .ub

/-- After any history of setters, encodings and decodings, what `wireEncode` returns decodes to the current fields, the
time points in whole milliseconds. -/
theorem C86_forwarder_history (ops : List (Op Forwarder.Set)) (o : Obj Forwarder)
    (h : Forwarder.codec.run Forwarder.apply ops ⟨none, {}⟩ = some o) (ok : o.v.Ok) (o1 : Obj Forwarder) :
    Forwarder.codec.wireDecode o1 (Forwarder.codec.wireEncode o).2 = (.ok, ⟨some (Forwarder.codec.wireEncode o).2,
      { o.v with start := toMs o.v.start * 1000000, current := toMs o.v.current * 1000000 }⟩) :=
  Forwarder.sound.history Forwarder.apply ops {} o h ok o1

/-- Each setter changes what its own getter returns, as asked, and nothing else. -/
theorem C86_forwarder_setters (x : Forwarder.Set) (s : Forwarder) : (Forwarder.apply x s).shown = s.shown.set (Forwarder.target x).1 (Forwarder.target x).2 :=
  by cases x <;> rfl

/-! ### A face query filter -/

/-- Decoding an element as a face query filter: it succeeds exactly when the element has the right type and its value is a sequence of
elements that follow the grammar; the fields are then what the grammar says. -/
theorem C87_decode (o : Obj Filter) (b : Raw) (w : Option Raw) (s : Filter) :
    Filter.codec.wireDecode o b = (.ok, ⟨w, s⟩) ↔ w = some b ∧ b.type = 150 ∧ ∃ es, ReadsAs b.value es ∧ Laid es s.grammar :=
  wireDecode_iff _ _ Filter.sound.fill o ⟨w, s⟩ b

/-- Encoding a face query filter and decoding it, into any object, give back the same fields; the encoding is one element. -/
theorem C87_roundtrip (s : Filter) (h : s.Ok) (o : Obj Filter) : RawWF (Filter.codec.encode s) ∧
    Filter.codec.wireDecode o (Filter.codec.encode s) = (.ok, ⟨some (Filter.codec.encode s), s⟩) :=
  ⟨Filter.sound.element s h, Filter.sound.roundtrip s h o⟩

/-- After any history of setters, encodings and decodings that do not throw, what `wireEncode` returns decodes to the
current fields: no stale encoding is ever returned. -/
theorem C87_history (ops : List (Op Filter.Set)) (o : Obj Filter)
    (h : Filter.codec.run Filter.apply ops ⟨none, {}⟩ = some o) (ok : o.v.Ok) (o1 : Obj Filter) :
    Filter.codec.wireDecode o1 (Filter.codec.wireEncode o).2 = (.ok, ⟨some (Filter.codec.wireEncode o).2, o.v⟩) :=
  Filter.sound.history Filter.apply ops {} o h ok o1

/-- Each setter changes what its own getter returns, as asked, and nothing else. -/
theorem C87_setters (x : Filter.Set) (s : Filter) : (Filter.apply x s).shown = s.shown.set (Filter.target x).1 (Filter.target x).2 :=
  by cases x <;> rfl

end Ndn.Nfd
