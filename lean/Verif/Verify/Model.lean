import Verif.Pipe.Model
import Verif.Interest.Model
/-
Model of security/verification-helpers for packets: `verifySignature` of a Data packet or an Interest that was received.

Simplification: only objects made from an encoding are modelled (`Data(block)`, `Interest(block)`); keys are as in area Pipe.
-/
namespace Ndn.Verify
open Ndn.Name Ndn.Block Ndn.Packet Ndn.Interest Ndn.Pipe

/-- `ParseResult`, verification-helpers.cpp 40-58: the signature type, the octets signed and the signature. -/
structure Parsed where
  type : Option Nat
  bufs : List Bytes
  sig : Bytes
  deriving DecidableEq, Repr

/-- `ParseResult{}`. -/
def Parsed.none : Parsed := ⟨Option.none, [], []⟩

/-- `parse(const Data&)`, verification-helpers.cpp 92-102, for a packet with the encoding `b` and the members `f`. -/
def parseData (b : Raw) (f : DFields) : Parsed :=
  match parseElements b.value with
  | .none => .none
  | some es =>
    match signedRange es with
    | .none => .none
    | some r => ⟨f.sigInfo.type, [r], (f.sigValue.map Raw.value).getD []⟩

/-- The old semantics in `parse(const Interest&)`, verification-helpers.cpp 116-131: `raw` are the components of the name as
they were received, `name` the components. -/
def parseOld (raw : List Raw) (name : List Comp) : Parsed :=
  if name.length < 2 then .none
  else
    match name[name.length - 2]?, name[name.length - 1]? with
    | some i, some v =>
      match blockFromValue i.value with
      | .none => .none
      | some ib =>
        let info := SigInfo.wireDecode ib 22
        if info.1 then
          match blockFromValue v.value with
          | .none => .none
          | some sv => ⟨info.2.type, [(raw.dropLast.map Raw.wire).flatten], sv.value⟩
        else .none
    | _, _ => .none

/-- `parse(const Interest&)`, verification-helpers.cpp 104-136. -/
def parseInterest (b : Raw) (f : IFields) : Parsed :=
  match f.params.find? (fun e => e.type = 44) with
  | some e =>
    let info := SigInfo.wireDecode e 44
    if info.1 then
      match f.params.find? (fun e => e.type = 46) with
      | some sv =>
        match signedRanges b f with
        | .none => .none
        | some (r1, r2) => ⟨info.2.type, [r1, r2], sv.value⟩
      | .none => old
    else .none
  | .none => old
where
  /-- `interestName.wireEncode()` is the element that was received. -/
  old : Parsed :=
    match parseElements b.value with
    | some (n :: _) =>
      match parseElements n.value with
      | some cs => parseOld cs f.name
      | .none => .none
    | _ => .none

/-- `verifySignature(const ParseResult&, key)`, verification-helpers.cpp 138-154; `none`: the octets given as key are not a
public key (79-90). -/
def verify (key : Option VKey) (p : Parsed) : Bool :=
  !p.bufs.isEmpty && match key with
    | some k => verifyBlobs p.bufs p.sig k
    | .none => false

/-- `verifySignature(packet, optional<Certificate>)`, verification-helpers.cpp 222-254. -/
def verifyCert (sha : Bytes → Bytes) (cert : Option (Option VKey)) (p : Parsed) : Bool :=
  match cert with
  | some key => verify key p
  | .none => if p.type = some 0 then verifyDigest sha p.bufs p.sig else false

/-- `verifySignature(Data(Block(w)), …)`; `none`: the octets are not a Data packet. -/
def checkData (v : Parsed → Bool) (w : Bytes) : Option Bool :=
  match fromBuffer w with
  | some (b, []) => (dataDecode b).map (fun f => v (parseData b f))
  | _ => .none

/-- `verifySignature(Interest(Block(w)), …)`; `none`: the octets are not an Interest. -/
def checkInterest (H : Bytes → Bytes) (auto : Bool) (v : Parsed → Bool) (w : Bytes) : Option Bool :=
  match fromBuffer w with
  | some (b, []) => (interestDecode H auto b).map (fun f => v (parseInterest b f))
  | _ => .none

end Ndn.Verify
