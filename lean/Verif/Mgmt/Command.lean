import Verif.Mgmt.Params
/-
Model of the control command formats, ndn-cxx/mgmt/nfd/control-command.{hpp,cpp}.
-/
namespace Ndn.Mgmt
open Tlv Block Name Packet

/-- `m_hasFields[f]`, control-parameters.hpp `getPresentFields`. -/
def Params.present (p : Params) : Field → Bool
  | .name => p.name.isSome
  | .faceId => p.faceId.isSome
  | .uri => p.uri.isSome
  | .localUri => p.localUri.isSome
  | .origin => p.origin.isSome
  | .cost => p.cost.isSome
  | .capacity => p.capacity.isSome
  | .count => p.count.isSome
  | .flags => p.flags.isSome
  | .mask => p.mask.isSome
  | .strategy => p.strategy.isSome
  | .expirationPeriod => p.expirationPeriod.isSome
  | .facePersistency => p.facePersistency.isSome
  | .baseCongestionMarkingInterval => p.baseCongestionMarkingInterval.isSome
  | .defaultCongestionThreshold => p.defaultCongestionThreshold.isSome
  | .mtu => p.mtu.isSome

/-- `ControlParametersCommandFormat`: `m_required` and `m_optional`, control-command.hpp 53-104. -/
structure Format where
  required : List Field
  optional : List Field

/-- How a validation ends. -/
inductive Verdict where
  | accept
  | reject
  | ub
  deriving DecidableEq, Repr

/-- The body of the loop, control-command.cpp 33-43. -/
def Format.fieldOk (fmt : Format) (p : Params) (f : Field) : Bool :=
  if f ∈ fmt.required then p.present f
  else !(p.present f && !decide (f ∈ fmt.optional))

/-- `ControlParametersCommandFormat::validate`, control-command.cpp 26-50. -/
def Format.validate (fmt : Format) (p : Params) : Verdict :=
  if Field.all.all (fmt.fieldOk p) then
    if .flags ∈ fmt.optional ∧ .mask ∈ fmt.optional then
      if p.present .flags != p.present .mask then .reject else .accept
    else .accept
  else .reject

/-- The commands, control-command.hpp 283-510. -/
inductive Command where
  | faceCreate | faceUpdate | faceDestroy | fibAddNextHop | fibRemoveNextHop | csConfig | csErase | strategyChoiceSet
  | strategyChoiceUnset | ribRegister | ribUnregister
  deriving DecidableEq, Repr

/-- The `s_requestFormat` of each command, control-command.cpp 67-75, 104-111, 138-140, 159-162, 189-192,
214-218, 224-227, 250-253, 259-261, 280-287, 322-326. -/
def Command.requestFormat : Command → Format
  | .faceCreate => ⟨[.uri], [.localUri, .flags, .mask, .facePersistency, .baseCongestionMarkingInterval,
      .defaultCongestionThreshold, .mtu]⟩
  | .faceUpdate => ⟨[], [.faceId, .flags, .mask, .facePersistency, .baseCongestionMarkingInterval,
      .defaultCongestionThreshold, .mtu]⟩
  | .faceDestroy => ⟨[.faceId], []⟩
  | .fibAddNextHop => ⟨[.name], [.faceId, .cost]⟩
  | .fibRemoveNextHop => ⟨[.name], [.faceId]⟩
  | .csConfig => ⟨[], [.capacity, .flags, .mask]⟩
  | .csErase => ⟨[.name], [.count]⟩
  | .strategyChoiceSet => ⟨[.name, .strategy], []⟩
  | .strategyChoiceUnset => ⟨[.name], []⟩
  | .ribRegister => ⟨[.name], [.faceId, .origin, .cost, .flags, .expirationPeriod]⟩
  | .ribUnregister => ⟨[.name], [.faceId, .origin]⟩

/-- The `s_responseFormat` of each command, control-command.cpp 77-86, 113-120, 141-143, 164-168, 193-196,
219-222, 228-232, 254-257, 262-264, 288-295, 327-331 (that of `rib/announce`, 373-374, is that of `rib/register`). -/
def Command.responseFormat : Command → Format
  | .faceCreate => ⟨[.faceId, .uri, .localUri, .flags, .facePersistency], [.baseCongestionMarkingInterval,
      .defaultCongestionThreshold, .mtu]⟩
  | .faceUpdate => ⟨[.faceId, .flags, .facePersistency], [.baseCongestionMarkingInterval, .defaultCongestionThreshold, .mtu]⟩
  | .faceDestroy => ⟨[.faceId], []⟩
  | .fibAddNextHop => ⟨[.name, .faceId, .cost], []⟩
  | .fibRemoveNextHop => ⟨[.name, .faceId], []⟩
  | .csConfig => ⟨[.capacity, .flags], []⟩
  | .csErase => ⟨[.name, .count], [.capacity]⟩
  | .strategyChoiceSet => ⟨[.name, .strategy], []⟩
  | .strategyChoiceUnset => ⟨[.name], []⟩
  | .ribRegister => ⟨[.name, .faceId, .origin, .cost, .flags], [.expirationPeriod]⟩
  | .ribUnregister => ⟨[.name, .faceId, .origin], []⟩

/-- `getFaceId() == INVALID_FACE_ID`; the getter asserts that the field is there. -/
def needFaceId (p : Params) : Verdict :=
  match p.faceId with
  | none => .ub
  | some x => if x = 0 then .reject else .accept

/-- `getName().empty()`. -/
def needNonEmptyName (p : Params) : Verdict :=
  match p.name with
  | none => .ub
  | some n => if n = [] then .reject else .accept

/-- The `validateRequestImpl` of each command: control-command.cpp 145-151 (faces/destroy), 234-240 (cs/erase), 266-272
(strategy-choice/unset); the others do nothing, control-command.hpp 247-250. -/
def Command.checkRequest : Command → Params → Verdict
  | .faceDestroy, p => needFaceId p
  | .csErase, p => if p.count = some 0 then .reject else .accept
  | .strategyChoiceUnset, p => needNonEmptyName p
  | _, _ => .accept

/-- The `validateResponseImpl` of each command: control-command.cpp 96-102, 130-136, 153-157, 181-187, 206-212,
242-248, 274-278, 314-320, 344-350. -/
def Command.checkResponse : Command → Params → Verdict
  | .faceCreate, p => needFaceId p
  | .faceUpdate, p => needFaceId p
  | .faceDestroy, p => needFaceId p
  | .fibAddNextHop, p => needFaceId p
  | .fibRemoveNextHop, p => needFaceId p
  | .csErase, p => if p.capacity = some 0 then .reject else .accept
  | .strategyChoiceUnset, p => needNonEmptyName p
  | .ribRegister, p => needFaceId p
  | .ribUnregister, p => needFaceId p
  | _, _ => .accept

/-- `ControlCommand::validateRequest`, control-command.hpp 206-215. -/
def Command.validateRequest (c : Command) (p : Params) : Verdict :=
  match c.requestFormat.validate p with
  | .accept => c.checkRequest p
  | v => v

/-- `ControlCommand::validateResponse`, control-command.hpp 226-235. -/
def Command.validateResponse (c : Command) (p : Params) : Verdict :=
  match c.responseFormat.validate p with
  | .accept => c.checkResponse p
  | v => v

/-- Set a field that is not there. -/
def orSet {α : Type} (o : Option α) (a : α) : Option α := if o.isSome then o else some a

/-- The `applyDefaultsToRequestImpl` of each command: control-command.cpp 88-94, 122-128, 170-179, 198-204, 297-312,
333-342. -/
def Command.applyDefaults : Command → Params → Params
  | .faceCreate, p => { p with facePersistency := orSet p.facePersistency 0 }
  | .faceUpdate, p => { p with faceId := orSet p.faceId 0 }
  | .fibAddNextHop, p => { p with faceId := orSet p.faceId 0, cost := orSet p.cost 0 }
  | .fibRemoveNextHop, p => { p with faceId := orSet p.faceId 0 }
  | .ribRegister, p =>
    { p with faceId := orSet p.faceId 0, origin := orSet p.origin 0, cost := orSet p.cost 0, flags := orSet p.flags 1 }
  | .ribUnregister, p => { p with faceId := orSet p.faceId 0, origin := orSet p.origin 0 }
  | _, p => p

/-- The command name, `module` and `verb`, control-command.hpp 283-448. -/
def Command.words : Command → String × String
  | .faceCreate => ("faces", "create")
  | .faceUpdate => ("faces", "update")
  | .faceDestroy => ("faces", "destroy")
  | .fibAddNextHop => ("fib", "add-nexthop")
  | .fibRemoveNextHop => ("fib", "remove-nexthop")
  | .csConfig => ("cs", "config")
  | .csErase => ("cs", "erase")
  | .strategyChoiceSet => ("strategy-choice", "set")
  | .strategyChoiceUnset => ("strategy-choice", "unset")
  | .ribRegister => ("rib", "register")
  | .ribUnregister => ("rib", "unregister")

/-- The bytes of a word; all of them are ASCII. -/
def strBytes (s : String) : Bytes := s.toList.map fun c => UInt8.ofNat c.toNat

def Command.module (c : Command) : Comp := ⟨8, strBytes c.words.1⟩
def Command.verb (c : Command) : Comp := ⟨8, strBytes c.words.2⟩

/-- The name of the Interest that `ControlCommand::createRequest` makes, control-command.hpp 186-194, with
`ControlParametersCommandFormat::encode`, control-command.cpp 59-65; `none` is an exception. -/
def Command.createRequest (c : Command) (pfx : List Comp) (p : Params) : Option (List Comp) :=
  match c.validateRequest p with
  | .accept => some (pfx ++ [c.module, c.verb] ++ [⟨8, p.encode.wire⟩])
  | _ => none

/-- `ControlCommand::parseRequest`, control-command.hpp 199-204, with `ControlParametersCommandFormat::decode`,
control-command.cpp 52-57. -/
def parseRequest (name : List Comp) (prefixLen : Nat) : Option Params :=
  match name[prefixLen + 2]? with
  | none => none
  | some c => (blockFromValue c.value).bind Params.decode

end Ndn.Mgmt
