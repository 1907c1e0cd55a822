import Verif.Packet.Model
/-
Model of the NDNLPv2 packet: ndn-cxx/lp/{packet,field-decl,fields,nack-header,cache-policy,pit-token,
prefix-announcement-header}.
-/
namespace Ndn.Lp
open Tlv Block Packet

/-! ### Fields -/

/-- `FieldSet`, lp/fields.hpp 45-136. -/
inductive Fld where
  | fragment | sequence | fragIndex | fragCount | pitToken | nack | nextHopFaceId | incomingFaceId
  | cachePolicy | congestionMark | ack | txSequence | nonDiscovery | prefixAnn
  deriving DecidableEq, Repr

def Fld.all : List Fld :=
  [.fragment, .sequence, .fragIndex, .fragCount, .pitToken, .nack, .nextHopFaceId, .incomingFaceId,
   .cachePolicy, .congestionMark, .ack, .txSequence, .nonDiscovery, .prefixAnn]

/-- `TlvType`, lp/tlv.hpp 36-53 and fields.hpp. -/
def Fld.type : Fld → Nat
  | .fragment => 80 | .sequence => 81 | .fragIndex => 82 | .fragCount => 83 | .pitToken => 98
  | .nack => 800 | .nextHopFaceId => 816 | .incomingFaceId => 812 | .cachePolicy => 820
  | .congestionMark => 832 | .ack => 836 | .txSequence => 840 | .nonDiscovery => 844 | .prefixAnn => 848

/-- `IsRepeatable`, fields.hpp: only AckField (105-108). -/
def Fld.repeatable : Fld → Bool
  | .ack => true
  | _ => false

/-- `FieldLocation` through `getLocationSortOrder`, packet.cpp 31-39: header 1, fragment 2. -/
def Fld.location : Fld → Nat
  | .fragment => 2
  | _ => 1

/-- `FieldInfo`, packet.cpp 41-53. -/
structure Info where
  type : Nat
  recognized : Bool
  canIgnore : Bool
  repeatable : Bool
  location : Nat
  deriving DecidableEq, Repr

/-- `FieldInfo(type)`, packet.cpp 56-72; HEADER3_MIN/MAX from lp/tlv.hpp 66-70. -/
def info (t : Nat) : Info :=
  match Fld.all.find? (fun f => f.type = t) with
  | some f => ⟨t, true, false, f.repeatable, f.location⟩
  | none => ⟨t, false, 800 ≤ t && t ≤ 959 && t &&& 3 == 0, false, 1⟩

/-- `compareFieldSortOrder`, packet.cpp 74-79. -/
def before (a b : Info) : Bool :=
  a.location < b.location || (a.location = b.location && a.type < b.type)

/-! ### Field values -/

/-- Values of the fields: an octet range, an integer, nothing, a `NackHeader` (`m_reason`, an `int`),
a `CachePolicy` (`m_policy`, an `int`), a `PrefixAnnouncementHeader` (its Data, if any). -/
inductive Val where
  | octets (b : Bytes)
  | num (n : Nat)
  | empty
  | nack (code : Int)
  | policy (code : Int)
  | ann (data : Option Raw)
  deriving DecidableEq, Repr

/-- `static_cast<uint64_t>` of an `int`. -/
def toU64 (i : Int) : Nat := (i % (2 ^ 64)).toNat

/-- `FIELD::encode`, field-decl.hpp 106-161, 200-205; `NackHeader::wireEncode` nack-header.cpp 62-71;
`CachePolicy::wireEncode` cache-policy.cpp 45-58; `PrefixAnnouncementHeader::wireEncode`
prefix-announcement-header.cpp 42-55. `none` is an exception (or, for a value of another kind, not
expressible in C++). -/
def encodeField : Fld → Val → Option Bytes
  | .fragment, .octets b => some (tlvBytes 80 b)
  | .pitToken, .octets b => some (tlvBytes 98 b)
  | .sequence, .num n => some (tlvBytes 81 (beBytes 8 n))
  | .ack, .num n => some (tlvBytes 836 (beBytes 8 n))
  | .txSequence, .num n => some (tlvBytes 840 (beBytes 8 n))
  | .fragIndex, .num n => some (nniTlv 82 n)
  | .fragCount, .num n => some (nniTlv 83 n)
  | .nextHopFaceId, .num n => some (nniTlv 816 n)
  | .incomingFaceId, .num n => some (nniTlv 812 n)
  | .congestionMark, .num n => some (nniTlv 832 n)
  | .nonDiscovery, .empty => some (tlvBytes 844 [])
  | .nack, .nack c => some (tlvBytes 800 (nniTlv 801 (toU64 c)))
  | .cachePolicy, .policy c => if c = 0 then none else some (tlvBytes 820 (nniTlv 821 (toU64 c)))
  | .prefixAnn, .ann d => d.map (fun d => tlvBytes 848 d.wire)
  | _, _ => none

/-- `NackHeader::wireDecode`, nack-header.cpp 92-111. The reason is an `int`. -/
def nackDecode (b : Raw) : Option Int :=
  match parseElements b.value with
  | none => none
  | some [] => some 0
  | some (e :: _) => if e.type = 801 then (readNniValueAs (2 ^ 31 - 1) e.value).map Int.ofNat else none

/-- `NackHeader::getReason`, nack-header.cpp 113-125. -/
def getReason (code : Int) : Int := if code = 50 ∨ code = 100 ∨ code = 150 then code else 0

/-- `CachePolicy::wireDecode`, cache-policy.cpp 83-104, with `getPolicy` 106-115. -/
def policyDecode (b : Raw) : Option Int :=
  match parseElements b.value with
  | some (e :: _) =>
    if e.type = 821 then
      match readNniValueAs (2 ^ 31 - 1) e.value with
      | some n => if n = 1 then some 1 else none
      | none => none
    else none
  | _ => none

/-- `PrefixAnnouncementHeader::wireDecode`, prefix-announcement-header.cpp 59-68: the first Data
element, which must be acceptable as a prefix announcement (`pa`: see the model of
PrefixAnnouncement). -/
def annDecode (pa : Raw → Bool) (b : Raw) : Option Raw :=
  match parseElements b.value with
  | none => none
  | some es =>
    match es.find? (fun e => e.type = 6) with
    | none => none
    | some d => if pa d then some d else none

/-- `FIELD::decode`, field-decl.hpp 39-104, 186-194. -/
def decodeField (pa : Raw → Bool) (f : Fld) (b : Raw) : Option Val :=
  if b.type ≠ f.type then none
  else match f with
    | .fragment | .pitToken => if b.value = [] then none else some (.octets b.value)
    | .sequence | .ack | .txSequence => if b.value.length = 8 then some (.num (beNat b.value)) else none
    | .fragIndex | .fragCount | .nextHopFaceId | .incomingFaceId | .congestionMark =>
      (readNniValue b.value).map .num
    | .nonDiscovery => if b.value = [] then some .empty else none
    | .nack => (nackDecode b).map .nack
    | .cachePolicy => (policyDecode b).map .policy
    | .prefixAnn => (annDecode pa b).map (fun d => .ann (some d))

/-! ### The packet -/

/-- `m_wire`, packet.hpp 201: its elements, and its encoding if present. -/
structure Pkt where
  elems : List Raw
  wire : Option Raw
  deriving DecidableEq, Repr

/-- `Packet()`. -/
def Pkt.init : Pkt := ⟨[], none⟩

/-- `count`, packet.hpp 86-92. -/
def Pkt.count (p : Pkt) (f : Fld) : Nat := p.elems.countP (fun e => e.type = f.type)

/-- The loop of `get`, packet.hpp 98-113: outer `none`: out of range. -/
def nthOf (t : Nat) : List Raw → Nat → Option Raw
  | [], _ => none
  | e :: es, i => if e.type ≠ t then nthOf t es i else if i = 0 then some e else nthOf t es (i - 1)

/-- `get`, packet.hpp 98-113: `none` is an exception. -/
def Pkt.get (pa : Raw → Bool) (p : Pkt) (f : Fld) (i : Nat) : Option Val :=
  (nthOf f.type p.elems i).bind (decodeField pa f)

/-- `list`, packet.hpp 118-132: `none` is an exception. -/
def listOf (pa : Raw → Bool) (f : Fld) : List Raw → Option (List Val)
  | [] => some []
  | e :: es =>
    if e.type ≠ f.type then listOf pa f es
    else match decodeField pa f e with
      | none => none
      | some v => (listOf pa f es).map (v :: ·)

def Pkt.list (pa : Raw → Bool) (p : Pkt) (f : Fld) : Option (List Val) := listOf pa f p.elems

/-- `std::upper_bound(elements, type, comparePos)`, packet.hpp 164-165, packet.cpp 145-149: the
position of the first element that the type is ordered before. (The elements are partitioned by this
predicate, see `C32_canonical`, so the binary search finds that position.) -/
def upperBound (t : Nat) (es : List Raw) : Nat :=
  (es.takeWhile (fun e => !before (info t) (info e.type))).length

/-- `add`, packet.hpp 150-169: outcome and packet. -/
def Pkt.add (p : Pkt) (f : Fld) (v : Val) : Bool × Pkt :=
  if !f.repeatable && p.count f > 0 then (false, p)
  else match encodeField f v with
    | none => (false, p)
    | some w =>
      match fromRange w true with
      | none => (false, p)
      | some b =>
        let i := upperBound f.type p.elems
        (true, ⟨p.elems.take i ++ b :: p.elems.drop i, none⟩)

/-- `clear`, packet.hpp 196-202; `Block::remove`. -/
def Pkt.clear (p : Pkt) (f : Fld) : Pkt := ⟨p.elems.filter (fun e => e.type ≠ f.type), none⟩

/-- `set`, packet.hpp 138-144. -/
def Pkt.set (p : Pkt) (f : Fld) (v : Val) : Bool × Pkt := (p.clear f).add f v

/-- The loop of `remove`, packet.hpp 175-191; `none`: out of range. -/
def removeNth (t : Nat) : List Raw → Nat → Option (List Raw)
  | [], _ => none
  | e :: es, i =>
    if e.type = t then
      if i = 0 then some es else (removeNth t es (i - 1)).map (e :: ·)
    else (removeNth t es i).map (e :: ·)

/-- `remove`, packet.hpp 175-191. -/
def Pkt.remove (p : Pkt) (f : Fld) (i : Nat) : Bool × Pkt :=
  match removeNth f.type p.elems i with
  | none => (false, p)
  | some es => (true, ⟨es, none⟩)

/-- Result of `wireEncode`: `undefined` is `front()` of an empty vector. -/
inductive Enc where
  | ok (b : Raw)
  | threw
  | undefined
  deriving DecidableEq, Repr

/-- The condition of `Packet::wireEncode`, packet.cpp 95. -/
def bareElem : List Raw → Option Raw
  | [e] => if e.type = 80 then some e else none
  | _ => none

/-- `Packet::wireEncode`, packet.cpp 90-102. -/
def Pkt.wireEncode (p : Pkt) : Enc × Pkt :=
  match bareElem p.elems with
  | some e =>
    match parseElements e.value with
    | none => (.threw, p)
    | some [] => (.undefined, p)
    | some (x :: _) => (.ok x, p)
  | none =>
    match p.wire with
    | some b => (.ok b, p)
    | none =>
      let b := binaryBlock 100 ((p.elems.map Raw.wire).flatten)
      (.ok b, ⟨p.elems, some b⟩)

/-- The loop of `Packet::wireDecode`, packet.cpp 119-140; `prev` is `none` for the first element. -/
def checkFields : Option Info → List Raw → Bool
  | _, [] => true
  | prev, e :: es =>
    let i := info e.type
    if !i.recognized && !i.canIgnore then false
    else match prev with
      | none => checkFields (some i) es
      | some q =>
        if i.type = q.type && !i.repeatable then false
        else if i.type ≠ q.type && !before q i then false
        else checkFields (some i) es

/-- `Packet::wireDecode`, packet.cpp 104-143. -/
def Pkt.wireDecode (p : Pkt) (b : Raw) : Bool × Pkt :=
  if b.type = 5 ∨ b.type = 6 then Pkt.init.add .fragment (.octets b.wire)
  else if b.type ≠ 100 then (false, p)
  else match parseElements b.value with
    | none => (false, p)
    | some es => if checkFields none es then (true, ⟨es, some b⟩) else (false, p)

/-- Calls on a packet. -/
inductive POp where
  | add (f : Fld) (v : Val)
  | set (f : Fld) (v : Val)
  | remove (f : Fld) (i : Nat)
  | clear (f : Fld)
  | encode
  | decode (b : Raw)

/-- One call: whether it returned, and the packet. (The outcome of `wireEncode` itself is `Pkt.wireEncode`;
here only its effect on the object counts.) -/
def Pkt.step (p : Pkt) : POp → Bool × Pkt
  | .add f v => p.add f v
  | .set f v => p.set f v
  | .remove f i => p.remove f i
  | .clear f => (true, p.clear f)
  | .encode => (true, p.wireEncode.2)
  | .decode b => p.wireDecode b

/-! ### Nack reasons and PIT tokens -/

/-- `isLessSevere`, nack-header.cpp 44-55. -/
def isLessSevere (x y : Int) : Bool :=
  if x = 0 then false
  else if y = 0 then true
  else x < y

/-- `PitToken::validate`, pit-token.cpp 30-37: whether it does not throw. -/
def pitTokenValid (b : Bytes) : Bool := !(b.length < 1 || b.length > 32)

end Ndn.Lp
