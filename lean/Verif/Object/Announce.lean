import Verif.Packet.Model
import Verif.Cert.Model
import Verif.Interest.Model

/-!
# Prefix announcements and metadata objects

Models of `PrefixAnnouncement` (`ndn-cxx/prefix-announcement.{hpp,cpp}`) and `MetadataObject`
(`ndn-cxx/metadata-object.{hpp,cpp}`). Simplified: a `Data` object is its members (`DFields`); signing
is a parameter that says whether it threw and what it left in the packet; the clock is a parameter.
-/

namespace Ndn.Object
open Ndn.Tlv Ndn.Block Ndn.Name Ndn.Packet Ndn.Cert Ndn.Interest

/-- `PrefixAnnouncement::getKeywordComponent`, prefix-announcement.cpp 119-124. -/
def paKeyword : Comp := ⟨32, [80, 65]⟩

/-- `MetadataObject::getKeywordComponent`, metadata-object.cpp 78-83. -/
def mdKeyword : Comp := ⟨32, [109, 101, 116, 97, 100, 97, 116, 97]⟩

/-- The test of the name, prefix-announcement.cpp 33-36, and `isValidName`, metadata-object.cpp
85-90. -/
def nameEnds (s : Settings) (kw : Comp) (n : List Comp) : Bool :=
  if n.length < 3 then false
  else n[n.length - 3]? == some kw && (n[n.length - 2]?.map (Conv.version.is s)).getD false &&
    (n[n.length - 1]?.map (Conv.segment.is s)).getD false

/-- A prefix announcement; the expiration period is a signed 64-bit count of milliseconds. -/
structure PA where
  name : List Comp
  exp : Int
  validity : Option Validity
  data : Option DFields

/-- `PrefixAnnouncement()`. -/
def PA.empty : PA := ⟨[], 0, none, none⟩

/-- Outcome of the constructor: `error` is a `tlv::Error`. -/
inductive PaOut where
  | ok (pa : PA)
  | error
  | outOfRange
  | undefined

/-- Conversion of `uint64_t` to `int64_t`. -/
def toInt64 (n : Nat) : Int := if n < 2 ^ 63 then n else (n : Int) - 2 ^ 64

/-- The value of the content, empty if there is none. -/
def payload (f : DFields) : Bytes :=
  match f.content with
  | none => []
  | some c => c.value

/-- `PrefixAnnouncement(data)`, prefix-announcement.cpp 29-64. -/
def paDecode (s : Settings) (other : Bytes → Parsed) (f : DFields) : PaOut :=
  if !nameEnds s paKeyword f.name then .error
  else if f.minfo.type ≠ 5 then .error
  else if (payload f).length = 0 then .error
  else match parseElements (payload f) with
    | none => .error
    | some es =>
      match es.find? (fun e => e.type == 109) with
      | none => .error
      | some x =>
        match readNniValue x.value with
        | none => .error
        | some e =>
          let check (v : Option Validity) : PaOut :=
            if es.any (fun e => e.type != 109 && e.type != 253 && isCriticalType e.type) then .error
            else .ok ⟨f.name.take (f.name.length - 3), toInt64 e, v, some f⟩
          match es.find? (fun e => e.type == 253) with
          | none => check none
          | some y =>
            match Validity.default.wireDecode other y with
            | (.ok, v) => check (some v)
            | (.error, _) => .error
            | (.outOfRange, _) => .outOfRange
            | (.undefined, _) => .undefined

/-- What `keyChain.sign` does with a packet: whether it returned, and the packet afterwards. -/
abbrev Sign := DFields → Bool × DFields

/-- The packet built by `toData`, prefix-announcement.cpp 71-85. The octets of the validity period
are those it caches. -/
def paPacket (s : Settings) (pa : PA) (version : Nat) : DFields :=
  let name := pa.name ++ [paKeyword] ++ (Conv.version.from s version).toList ++ (Conv.segment.from s 0).toList
  let content := nniTlv 109 (pa.exp % 2 ^ 64).toNat ++
    match pa.validity with
    | none => []
    | some v => v.wireEncode.1
  ⟨name, { MetaInfo.init with type := 5 }, some (binaryBlock 21 content), SigInfo.init, none⟩

/-- Calls on a prefix announcement. -/
inductive PaOp where
  | setName (n : List Comp)
  | setExp (ms : Int)
  | setValidity (v : Option Validity)
  | toData (version : Nat) (sign : Sign)

/-- One call: whether it returned normally, and the object; prefix-announcement.cpp 66-117. The
packet returned by `toData` is the object's `data`. -/
def PA.step (s : Settings) (pa : PA) : PaOp → Bool × PA
  | .setName n => (true, { pa with data := none, name := n })
  | .setExp ms => if ms < 0 then (false, pa) else (true, { pa with data := none, exp := ms })
  | .setValidity v => (true, { pa with data := none, validity := v })
  | .toData version sign =>
    match pa.data with
    | some _ => (true, pa)
    | none =>
      let r := sign (paPacket s pa version)
      (r.1, { pa with data := some r.2, validity := pa.validity.map fun v => v.wireEncode.2 })

/-- `operator==`, prefix-announcement.hpp 138-144. -/
def PA.equals (a b : PA) : Bool :=
  decide (a.name = b.name) && decide (a.exp = b.exp) &&
    match a.validity, b.validity with
    | none, none => true
    | some v, some w => v.equals w
    | _, _ => false

/-- `MetadataObject(data)`, metadata-object.cpp 30-47: the versioned name, or an exception. -/
def mdDecode (s : Settings) (f : DFields) : Option (List Comp) :=
  if !nameEnds s mdKeyword f.name then none
  else if f.minfo.type ≠ 0 then none
  else if (payload f).length = 0 then none
  else (parseElements (payload f)).bind fun es =>
    (es.find? (fun e => e.type == 7)).bind nameOf

/-- `makeData`, metadata-object.cpp 49-69; `none` is an exception. -/
def mdMake (s : Settings) (versionedName discoveryName : List Comp) (version : Nat) (freshness : Int) (sign : Sign) :
    Option DFields :=
  if discoveryName.getLast? ≠ some mdKeyword then none
  else
    let name := discoveryName ++ (Conv.version.from s version).toList ++ (Conv.segment.from s 0).toList
    if freshness < 0 then none
    else
      let r := sign ⟨name, { MetaInfo.init with freshness := freshness.toNat },
        some (binaryBlock 21 (encodeComps versionedName)), SigInfo.init, none⟩
      if r.1 then some r.2 else none

/-- `makeDiscoveryInterest`, metadata-object.cpp 92-98, applied to a new Interest. -/
def mdInterest (i : IFields) (n : List Comp) : IFields :=
  { i with name := n ++ [mdKeyword], canBePrefix := true, mustBeFresh := true }

end Ndn.Object
