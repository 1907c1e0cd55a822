import Verif.Lp.Model
/-
Model of the packets a Face hands to its transport and takes from it: ndn-cxx/impl/{face-impl,
lp-field-tag}.hpp, face.cpp; and of what a DummyClientFace makes of them: util/dummy-client-face.cpp.
-/
namespace Ndn.Link
open Tlv Block Packet Lp

/-- The tags that travel in NDNLPv2 fields, lp/tags.hpp 36-60: IncomingFaceIdTag, NextHopFaceIdTag,
CongestionMarkTag, CachePolicyTag. (PrefixAnnouncementTag and PitTokenTag are not looked at by a Face.) -/
structure Tags where
  incoming : Option Nat
  nextHop : Option Nat
  congestion : Option Nat
  policy : Option Int
  deriving DecidableEq, Repr

def Tags.none : Tags := ⟨.none, .none, .none, .none⟩

/-- What is sent: an Interest, a Data, or a Nack with its reason (`m_reason`, an `int`). -/
inductive Kind where
  | interest
  | data
  | nack (reason : Int)
  deriving DecidableEq, Repr

/-- A network packet: `wire` is what `wireEncode` of the Interest or Data returns; for a Nack that of
its Interest. -/
structure NetPkt where
  kind : Kind
  wire : Raw
  tags : Tags
  deriving DecidableEq, Repr

/-- `lpPacket.add<Field>(value)`: `none` is an exception. -/
def addField (f : Fld) (v : Val) (p : Pkt) : Option Pkt :=
  if (p.add f v).1 then some (p.add f v).2 else none

/-- `addFieldFromTag`, lp-field-tag.hpp 30-38. -/
def addTag (f : Fld) (v : Option Val) (p : Pkt) : Option Pkt :=
  match v with
  | none => some p
  | some v => addField f v p

/-- `lpPacket.wireEncode()`: `none` is an exception, or the undefined behaviour of an empty fragment
(which no packet built here has). -/
def encode (p : Pkt) : Option Raw :=
  match p.wireEncode.1 with
  | .ok b => some b
  | _ => none

/-- The header fields: `expressInterest` face-impl.hpp 105-107, `putData` 227-229, `putNack` 246-248. -/
def header (n : NetPkt) : Option Pkt :=
  match n.kind with
  | .interest =>
    (addTag .nextHopFaceId (n.tags.nextHop.map .num) .init).bind
      (addTag .congestionMark (n.tags.congestion.map .num))
  | .data =>
    (addTag .cachePolicy (n.tags.policy.map .policy) .init).bind
      (addTag .congestionMark (n.tags.congestion.map .num))
  | .nack r =>
    (addField .nack (.nack r) .init).bind
      (addTag .congestionMark (n.tags.congestion.map .num))

/-- `finishEncoding`, face-impl.hpp 338-351; MAX_NDN_PACKET_SIZE is 8800, encoding/tlv.hpp 41. -/
def finishEncoding (p : Pkt) (wire : Raw) : Option Raw :=
  (if p.elems.isEmpty then some wire
   else (addField .fragment (.octets wire.wire) p).bind encode).bind fun b =>
    if b.wire.length > 8800 then none else some b

/-- What the transport is given; `none` is an exception, nothing is sent. -/
def faceSend (n : NetPkt) : Option Raw := (header n).bind (finishEncoding · n.wire)

/-- Prefix announcements are not read here. -/
def noAnn : Raw → Bool := fun _ => true

/-- `setTag` with the value of a field. -/
def Tags.put (t : Tags) : Fld → Val → Tags
  | .incomingFaceId, .num n => { t with incoming := some n }
  | .nextHopFaceId, .num n => { t with nextHop := some n }
  | .congestionMark, .num n => { t with congestion := some n }
  | .cachePolicy, .policy c => { t with policy := some c }
  | _, _ => t

/-- A series of `addTagFromField`, lp-field-tag.hpp 40-47; `none` is an exception. -/
def readTags (p : Pkt) : List Fld → Tags → Option Tags
  | [], t => some t
  | f :: fs, t =>
    if p.count f > 0 then
      match p.get noAnn f 0 with
      | none => none
      | some v => readTags p fs (t.put f v)
    else readTags p fs t

/-- `lpPacket.get<FragmentField>()` and `Block netPacket({frag.first, frag.second})`, face.cpp 317-318,
dummy-client-face.cpp 128-129. -/
def netPacket (p : Pkt) : Option Raw :=
  match p.get noAnn .fragment 0 with
  | some (.octets b) => fromRange b true
  | _ => none

/-- The common part of `Face::onReceiveElement`, face.cpp 312-342, and of the handler installed by
`DummyClientFace::construct`, dummy-client-face.cpp 125-152. They differ in the tags they set: `fi`,
`fd` and `fn` are the fields read for an Interest, a Data, a Nack. `acc` says whether the block is
accepted by `Interest(block)` or `Data(block)` (C23, C28). Result: `none` is an exception, `some none`
that nothing happens. -/
def receiveWith (acc : Raw → Bool) (fi fd fn : List Fld) (b : Raw) : Option (Option NetPkt) :=
  if (Pkt.init.wireDecode b).1 then
    let p := (Pkt.init.wireDecode b).2
    match netPacket p with
    | none => none
    | some w =>
      if w.type = 5 then
        if acc w then
          if p.count .nack > 0 then
            match p.get noAnn .nack 0 with
            | some (.nack r) => (readTags p fn .none).map (fun t => some ⟨.nack r, w, t⟩)
            | _ => none
          else (readTags p fi .none).map (fun t => some ⟨.interest, w, t⟩)
        else none
      else if w.type = 6 then
        if acc w then (readTags p fd .none).map (fun t => some ⟨.data, w, t⟩) else none
      else some none
  else none

/-- `extractLpLocalFields`, face.cpp 303-310. -/
def localFields : List Fld := [.incomingFaceId, .congestionMark]

/-- `Face::onReceiveElement`, face.cpp 312-342: what is handed to `processIncomingInterest`,
`satisfyPendingInterests` or `nackPendingInterests`. -/
def faceReceive (acc : Raw → Bool) : Raw → Option (Option NetPkt) :=
  receiveWith acc localFields localFields localFields

/-- The handler of `onSendBlock`, dummy-client-face.cpp 125-152: what `onSendInterest`, `onSendData` or
`onSendNack` is emitted with. -/
def dummySent (acc : Raw → Bool) : Raw → Option (Option NetPkt) :=
  receiveWith acc [.nextHopFaceId, .congestionMark] [.cachePolicy, .congestionMark] [.congestionMark]

/-- `DummyClientFace::receive`, dummy-client-face.cpp 242-277: the block the transport receives. -/
def dummyReceive (n : NetPkt) : Option Raw :=
  match n.kind with
  | .interest =>
    if (Pkt.init.wireDecode n.wire).1 then
      (((addTag .incomingFaceId (n.tags.incoming.map .num) (Pkt.init.wireDecode n.wire).2).bind
        (addTag .nextHopFaceId (n.tags.nextHop.map .num))).bind
        (addTag .congestionMark (n.tags.congestion.map .num))).bind encode
    else none
  | .data =>
    if (Pkt.init.wireDecode n.wire).1 then
      ((addTag .incomingFaceId (n.tags.incoming.map .num) (Pkt.init.wireDecode n.wire).2).bind
        (addTag .congestionMark (n.tags.congestion.map .num))).bind encode
    else none
  | .nack r =>
    ((((addField .nack (.nack r) .init).bind (addField .fragment (.octets n.wire.wire))).bind
      (addTag .incomingFaceId (n.tags.incoming.map .num))).bind
      (addTag .congestionMark (n.tags.congestion.map .num))).bind encode

/-- A packet sent by one dummy face and received by another linked to it (the links themselves are
the subject of C147): the signal of the first is connected to `receive` of the second, broadcast-link
of dummy-client-face.cpp 81-111. -/
def overLink (acc : Raw → Bool) (n : NetPkt) : Option (Option NetPkt) :=
  (faceSend n).bind fun b =>
    match dummySent acc b with
    | none => none
    | some none => some none
    | some (some m) => (dummyReceive m).bind (faceReceive acc)

end Ndn.Link
