import Verif.Nfd.Items
import Verif.Mgmt.Command
/-
Model of the answers to prefix registrations that `DummyClientFace` makes up: `enableRegistrationReply`,
util/dummy-client-face.cpp 210-240. Signing with a digest and the delivery through the event loop are left out.
-/
namespace Ndn.Dummy
open Tlv Block Name Packet Mgmt

/-- `/localhost/nfd`. -/
def localhostNfd : List Comp := [⟨8, strBytes "localhost"⟩, ⟨8, strBytes "nfd"⟩]

/-- `localhostRibPrefix`, 214. -/
def localhostRib : List Comp := localhostNfd ++ [⟨8, strBytes "rib"⟩]

inductive Reply where
  /-- No answer. -/
  | ignored
  /-- An exception goes to whoever runs the event loop. -/
  | threw
  /-- A Data packet with the name of the Interest and this response in its content. -/
  | answer (r : Nfd.Response)
  deriving DecidableEq

/-- 221-229. -/
def fillReply (faceId : Nat) (register : Bool) (p : Params) : Params :=
  let p := if p.faceId.isSome then p else { p with faceId := some faceId }
  let p := if p.origin.isSome then p else { p with origin := some 0 }
  if !p.cost.isSome && register then { p with cost := some 0 } else p

/-- The lambda, 213-239. A `ControlParameters` object that no setter was called on keeps the encoding it was decoded from. -/
def registrationReply (faceId : Nat) (name : List Comp) : Reply :=
  if name.length ≤ 4 ∨ !localhostRib.isPrefixOf name then .ignored
  else match name[4]?.bind fun c => blockFromValue c.value with
    | none => .threw
    | some b =>
      match Params.decode b with
      | none => .threw
      | some p =>
        let q := fillReply faceId (decide (name[3]? = some ⟨8, strBytes "register"⟩)) p
        .answer ⟨200, [], some (if q = p then b else q.encode)⟩

end Ndn.Dummy
