import Verif.Packet.Model
/-
Model of `nfd::ControlParameters`, ndn-cxx/mgmt/nfd/control-parameters.{hpp,cpp}.

A field is an `Option`: `none` when its bit in `m_hasFields` is clear (the member then cannot be read, every getter
asserts the bit). Durations are 64-bit signed, as `count()` gives them. `std::string` is a byte string.
Encoding is written in forward order (see Packet.Model).
-/
namespace Ndn.Mgmt
open Tlv Block Name Packet

/-- `ControlParameterField`, control-parameters.hpp 38-56. -/
inductive Field where
  | name | faceId | uri | localUri | origin | cost | capacity | count | flags | mask | strategy | expirationPeriod
  | facePersistency | baseCongestionMarkingInterval | defaultCongestionThreshold | mtu
  deriving DecidableEq, Repr

/-- The enumerators in order. -/
def Field.all : List Field :=
  [.name, .faceId, .uri, .localUri, .origin, .cost, .capacity, .count, .flags, .mask, .strategy, .expirationPeriod,
   .facePersistency, .baseCongestionMarkingInterval, .defaultCongestionThreshold, .mtu]

/-- The members of `ControlParameters` other than `m_wire`, control-parameters.hpp 639-656. -/
structure Params where
  name : Option (List Comp) := none
  faceId : Option Nat := none
  uri : Option Bytes := none
  localUri : Option Bytes := none
  origin : Option Nat := none
  cost : Option Nat := none
  capacity : Option Nat := none
  count : Option Nat := none
  flags : Option Nat := none
  mask : Option Nat := none
  strategy : Option (List Comp) := none
  expirationPeriod : Option Int := none
  facePersistency : Option Nat := none
  baseCongestionMarkingInterval : Option Int := none
  defaultCongestionThreshold : Option Nat := none
  mtu : Option Nat := none
  deriving DecidableEq, Repr

/-- Conversion of a signed 64-bit number to `uint64_t`. -/
def toU64 (i : Int) : Nat := (i % 2 ^ 64).toNat

/-- Conversion of a `uint64_t` to a signed 64-bit number. -/
def toI64 (n : Nat) : Int := if n < 2 ^ 63 then n else (n : Int) - 2 ^ 64

/-- An element that is there if the field is. -/
def optElem {α : Type} (o : Option α) (f : α → Bytes) : Bytes :=
  match o with
  | some a => f a
  | none => []

/-- The elements written by `ControlParameters::wireEncode(encoder)`, control-parameters.cpp 43-94. -/
def Params.value (p : Params) : Bytes :=
  optElem p.name encodeComps ++
  optElem p.faceId (nniTlv 105) ++
  optElem p.uri (tlvBytes 114) ++
  optElem p.localUri (tlvBytes 129) ++
  optElem p.origin (nniTlv 111) ++
  optElem p.cost (nniTlv 106) ++
  optElem p.capacity (nniTlv 131) ++
  optElem p.count (nniTlv 132) ++
  optElem p.flags (nniTlv 108) ++
  optElem p.mask (nniTlv 112) ++
  optElem p.strategy (fun n => tlvBytes 107 (encodeComps n)) ++
  optElem p.expirationPeriod (fun d => nniTlv 109 (toU64 d)) ++
  optElem p.facePersistency (nniTlv 133) ++
  optElem p.baseCongestionMarkingInterval (fun d => nniTlv 135 (toU64 d)) ++
  optElem p.defaultCongestionThreshold (nniTlv 136) ++
  optElem p.mtu (nniTlv 137)

/-- `ControlParameters::wireEncode()` without a cached encoding, control-parameters.cpp 96-98 and 109-113. -/
def Params.encode (p : Params) : Raw := binaryBlock 104 p.value

/-- The Strategy element, control-parameters.cpp 172-179. -/
def strategyOf (e : Raw) : Option (List Comp) :=
  match parseElements e.value with
  | some (x :: _) => nameOf x
  | _ => none

/-- The body of the loop of `ControlParameters::wireDecode`, control-parameters.cpp 129-203; `none` is an exception. -/
def Params.take (p : Params) (e : Raw) : Option Params :=
  if e.type = 7 then (nameOf e).map fun x => { p with name := some x }
  else if e.type = 105 then (readNniValue e.value).map fun x => { p with faceId := some x }
  else if e.type = 114 then some { p with uri := some e.value }
  else if e.type = 129 then some { p with localUri := some e.value }
  else if e.type = 111 then (readNniValueAs 65535 e.value).map fun x => { p with origin := some x }
  else if e.type = 106 then (readNniValue e.value).map fun x => { p with cost := some x }
  else if e.type = 131 then (readNniValue e.value).map fun x => { p with capacity := some x }
  else if e.type = 132 then (readNniValue e.value).map fun x => { p with count := some x }
  else if e.type = 108 then (readNniValue e.value).map fun x => { p with flags := some x }
  else if e.type = 112 then (readNniValue e.value).map fun x => { p with mask := some x }
  else if e.type = 107 then (strategyOf e).map fun x => { p with strategy := some x }
  else if e.type = 109 then (readNniValue e.value).map fun x => { p with expirationPeriod := some (toI64 x) }
  else if e.type = 133 then (readNniValueAs 255 e.value).map fun x => { p with facePersistency := some x }
  else if e.type = 135 then (readNniValue e.value).map fun x => { p with baseCongestionMarkingInterval := some (toI64 x) }
  else if e.type = 136 then (readNniValue e.value).map fun x => { p with defaultCongestionThreshold := some x }
  else if e.type = 137 then (readNniValue e.value).map fun x => { p with mtu := some x }
  else some p

def takeAll : Params → List Raw → Option Params
  | p, [] => some p
  | p, e :: es => match p.take e with
    | some p => takeAll p es
    | none => none

/-- `ControlParameters::wireDecode`, control-parameters.cpp 119-205; `none` is an exception. What is left in the object
after an exception is not modelled. -/
def Params.decode (b : Raw) : Option Params :=
  if b.type ≠ 104 then none
  else match parseElements b.value with
    | none => none
    | some es => takeAll {} es

/-! ### The object with its cached encoding -/

/-- `ControlParameters`; `wire` is `m_wire` when it has one. -/
structure PObj where
  wire : Option Raw := none
  p : Params := {}

/-- What a caller may do with one: a setter or unsetter (each resets `m_wire`, control-parameters.hpp 107-598),
encoding (control-parameters.cpp 103-117), decoding. -/
inductive POp where
  | setName (n : List Comp) | setFaceId (x : Nat) | setUri (s : Bytes) | setLocalUri (s : Bytes) | setOrigin (x : Nat)
  | setCost (x : Nat) | setCapacity (x : Nat) | setCount (x : Nat) | setFlags (x : Nat) | setMask (x : Nat)
  | setStrategy (n : List Comp) | setExpirationPeriod (d : Int) | setFacePersistency (x : Nat)
  | setBaseCongestionMarkingInterval (d : Int) | setDefaultCongestionThreshold (x : Nat) | setMtu (x : Nat)
  | unset (f : Field)
  | encode
  | decode (b : Raw)

/-- The unsetters, control-parameters.hpp 129-598. -/
def Params.unset (p : Params) : Field → Params
  | .name => { p with name := none }
  | .faceId => { p with faceId := none }
  | .uri => { p with uri := none }
  | .localUri => { p with localUri := none }
  | .origin => { p with origin := none }
  | .cost => { p with cost := none }
  | .capacity => { p with capacity := none }
  | .count => { p with count := none }
  | .flags => { p with flags := none }
  | .mask => { p with mask := none }
  | .strategy => { p with strategy := none }
  | .expirationPeriod => { p with expirationPeriod := none }
  | .facePersistency => { p with facePersistency := none }
  | .baseCongestionMarkingInterval => { p with baseCongestionMarkingInterval := none }
  | .defaultCongestionThreshold => { p with defaultCongestionThreshold := none }
  | .mtu => { p with mtu := none }

/-- `wireEncode()`, control-parameters.cpp 103-117. -/
def PObj.wireEncode (o : PObj) : PObj × Raw :=
  match o.wire with
  | some w => (o, w)
  | none => (⟨some o.p.encode, o.p⟩, o.p.encode)

/-- One call; `none` is an exception. -/
def PObj.step (o : PObj) : POp → Option PObj
  | .setName n => some ⟨none, { o.p with name := some n }⟩
  | .setFaceId x => some ⟨none, { o.p with faceId := some x }⟩
  | .setUri s => some ⟨none, { o.p with uri := some s }⟩
  | .setLocalUri s => some ⟨none, { o.p with localUri := some s }⟩
  | .setOrigin x => some ⟨none, { o.p with origin := some x }⟩
  | .setCost x => some ⟨none, { o.p with cost := some x }⟩
  | .setCapacity x => some ⟨none, { o.p with capacity := some x }⟩
  | .setCount x => some ⟨none, { o.p with count := some x }⟩
  | .setFlags x => some ⟨none, { o.p with flags := some x }⟩
  | .setMask x => some ⟨none, { o.p with mask := some x }⟩
  | .setStrategy n => some ⟨none, { o.p with strategy := some n }⟩
  | .setExpirationPeriod d => some ⟨none, { o.p with expirationPeriod := some d }⟩
  | .setFacePersistency x => some ⟨none, { o.p with facePersistency := some x }⟩
  | .setBaseCongestionMarkingInterval d => some ⟨none, { o.p with baseCongestionMarkingInterval := some d }⟩
  | .setDefaultCongestionThreshold x => some ⟨none, { o.p with defaultCongestionThreshold := some x }⟩
  | .setMtu x => some ⟨none, { o.p with mtu := some x }⟩
  | .unset f => some ⟨none, o.p.unset f⟩
  | .encode => some o.wireEncode.1
  | .decode b => (Params.decode b).map fun p => ⟨some b, p⟩

def PObj.run : List POp → PObj → Option PObj
  | [], o => some o
  | op :: ops, o => (o.step op).bind (PObj.run ops)

/-! ### Flag bits -/

/-- The outcome of a call on a flag bit. -/
inductive Bit (α : Type) where
  | ok (a : α)
  | outOfRange
  | ub
  deriving DecidableEq, Repr

/-- `1 << bit`, an `int` of 32 bits: undefined from 32 on, and negative at 31 (2^31 converted to `int`). -/
def shl1 (bit : Nat) : Option Int :=
  if bit < 31 then some (2 ^ bit) else if bit = 31 then some (-2 ^ 31) else none

/-- `~x` of an `int`. -/
def complement (x : Int) : Int := -x - 1

/-- `ControlParameters::hasFlagBit`, control-parameters.cpp 207-219. -/
def Params.hasFlagBit (p : Params) (bit : Nat) : Bit Bool :=
  if bit ≥ 64 then .outOfRange
  else match p.mask with
    | none => .ok false
    | some m => match shl1 bit with
      | none => .ub
      | some x => .ok (decide (m &&& toU64 x ≠ 0))

/-- `ControlParameters::getFlagBit`, control-parameters.cpp 221-233. -/
def Params.getFlagBit (p : Params) (bit : Nat) : Bit Bool :=
  if bit ≥ 64 then .outOfRange
  else match p.flags with
    | none => .ok false
    | some m => match shl1 bit with
      | none => .ub
      | some x => .ok (decide (m &&& toU64 x ≠ 0))

/-- `ControlParameters::setFlagBit`, control-parameters.cpp 235-258. -/
def Params.setFlagBit (p : Params) (bit : Nat) (value wantMask : Bool) : Bit Params :=
  if bit ≥ 64 then .outOfRange
  else match shl1 bit with
    | none => .ub
    | some x =>
      let flags := p.flags.getD 0
      let flags := if value then flags ||| toU64 x else flags &&& toU64 (complement x)
      let p := { p with flags := some flags }
      if wantMask then .ok { p with mask := some (p.mask.getD 0 ||| toU64 x) } else .ok p

/-- `ControlParameters::unsetFlagBit`, control-parameters.cpp 260-279. -/
def Params.unsetFlagBit (p : Params) (bit : Nat) : Bit Params :=
  if bit ≥ 64 then .outOfRange
  else match shl1 bit with
    | none => .ub
    | some x =>
      let mask := p.mask.getD 0 &&& toU64 (complement x)
      if mask = 0 then .ok { p with mask := none, flags := none } else .ok { p with mask := some mask }

end Ndn.Mgmt
