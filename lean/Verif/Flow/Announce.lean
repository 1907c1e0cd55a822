import Verif.Object.Announce
import Verif.Interest.Model
import Verif.Mgmt.Command
/-!
# The command `rib/announce`

Models of `RibAnnounceParameters` and `RibAnnounceCommand` (mgmt/nfd/control-command.{hpp,cpp}) with
`ApplicationParametersCommandFormat` (control-command.hpp 104-144): the parameters are a signed prefix announcement in the
ApplicationParameters of the Interest.
-/
namespace Ndn.Flow
open Ndn.Tlv Ndn.Block Ndn.Name Ndn.Packet Ndn.Cert Ndn.Interest Ndn.Object Ndn.Mgmt

/-- `RibAnnounceParameters`, control-command.hpp 458-491: the announcement, and the encoding cached in its Data, if any. -/
structure Ann where
  pa : PA
  cache : Option Bytes

/-- `RibAnnounceParameters::wireEncode`, control-command.cpp 363-370, as the octets of the block; `none` is a `tlv::Error`. -/
def Ann.wireEncode (a : Ann) : Option Bytes :=
  match a.pa.data with
  | none => none
  | some f => (⟨f, a.cache, []⟩ : DObj).wireEncode.2

/-- `RibAnnounceCommand::validateRequestImpl`, control-command.cpp 376-382; the format itself checks nothing,
control-command.hpp 117-123. -/
def announceValid (pa : PA) : Bool := pa.data.isSome

/-- `RibAnnounceCommand::validateResponse`, control-command.cpp 373-374 and 384-388: format and check of `rib/register`. -/
def announceResponse (p : Params) : Verdict := Command.ribRegister.validateResponse p

/-- `getName`, control-command.hpp 174-180 and 503. -/
def ribAnnounce : List Comp := [⟨8, strBytes "rib"⟩, ⟨8, strBytes "announce"⟩]

/-- Outcome of `createRequest`: an Interest, `ArgumentError`, or another exception. -/
inductive Created where
  | made (o : IObj)
  | argument
  | error
  deriving DecidableEq

/-- `createRequest`, control-command.hpp 182-194, with `ApplicationParametersCommandFormat::encode`, 136-143. The block given
to `setApplicationParameters` is a Data packet, so it is wrapped (interest.cpp 492-505). -/
def announceRequest (H : Bytes → Bytes) (auto : Bool) (top : List Comp) (a : Ann) : Created :=
  if !announceValid a.pa then .argument
  else match IObj.init.step H auto (.setName (top ++ ribAnnounce)) with
    | (false, _) => .error
    | (true, o) =>
      match a.wireEncode with
      | none => .error
      | some w => .made (o.setParamsInternal H (binaryBlock 36 w))

/-- `parseRequest`, control-command.hpp 196-204, with `ApplicationParametersCommandFormat::decode`, 125-134, and
`RibAnnounceParameters::wireDecode`, control-command.cpp 352-361; the empty block of an Interest without parameters has no
elements. -/
def announceParse (s : Settings) (other : Bytes → Parsed) (i : IFields) : PaOut :=
  match i.params with
  | [] => .error
  | p :: _ =>
    match parseElements p.value with
    | none => .error
    | some es =>
      match es.find? (fun e => e.type == 6) with
      | none => .error
      | some d =>
        match dataDecode d with
        | none => .error
        | some f => paDecode s other f

end Ndn.Flow
