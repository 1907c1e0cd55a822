import Verif.Mgmt.Command
import Verif.Tlv.Spec
import Verif.Block.Spec
import Verif.Packet.Spec
/-
What an encoding of control parameters means, in terms of the TLV specification only.
-/
namespace Ndn.Mgmt
open Tlv Tlv.Spec Block Block.Spec Name Packet Packet.Spec

/-- The element is a Name element with these components. -/
def IsName (e : Raw) (n : List Comp) : Prop :=
  e.type = 7 ∧ ∃ es, ReadsAs e.value es ∧ n = es.map fun x => ⟨x.type, x.value⟩

/-- A non-negative integer of at most `mx`. -/
def IsNum (mx : Nat) (e : Raw) (n : Nat) : Prop := NniForm e.value n ∧ n ≤ mx

/-- A 64-bit signed number in two's complement. -/
def IsSigned (e : Raw) (d : Int) : Prop :=
  ∃ n, NniForm e.value n ∧ -2 ^ 63 ≤ d ∧ d < 2 ^ 63 ∧ (n : Int) % 2 ^ 64 = d % 2 ^ 64

/-- The text of an element. -/
def IsText (e : Raw) (s : Bytes) : Prop := s = e.value

/-- An element whose first sub-element is a name. -/
def HoldsName (e : Raw) (n : List Comp) : Prop := ∃ x rest, ReadsAs e.value (x :: rest) ∧ IsName x n

/-- The value `o` of the field whose elements have type `t` and are read as `R` says: there is none without such an
element, and with several the last counts; each of them must be readable. -/
def FieldIs {α : Type} (t : Nat) (R : Raw → α → Prop) (es : List Raw) (o : Option α) : Prop :=
  (∀ e ∈ es, e.type = t → ∃ a, R e a) ∧
  match o with
  | none => ∀ e ∈ es, e.type ≠ t
  | some a => ∃ pre e post, es = pre ++ e :: post ∧ e.type = t ∧ R e a ∧ ∀ x ∈ post, x.type ≠ t

/-- The elements `es` of a ControlParameters element mean the fields `p`. -/
structure Means (es : List Raw) (p : Params) : Prop where
  name : FieldIs 7 IsName es p.name
  faceId : FieldIs 105 (IsNum (2 ^ 64 - 1)) es p.faceId
  uri : FieldIs 114 IsText es p.uri
  localUri : FieldIs 129 IsText es p.localUri
  origin : FieldIs 111 (IsNum 65535) es p.origin
  cost : FieldIs 106 (IsNum (2 ^ 64 - 1)) es p.cost
  capacity : FieldIs 131 (IsNum (2 ^ 64 - 1)) es p.capacity
  count : FieldIs 132 (IsNum (2 ^ 64 - 1)) es p.count
  flags : FieldIs 108 (IsNum (2 ^ 64 - 1)) es p.flags
  mask : FieldIs 112 (IsNum (2 ^ 64 - 1)) es p.mask
  strategy : FieldIs 107 HoldsName es p.strategy
  expirationPeriod : FieldIs 109 IsSigned es p.expirationPeriod
  facePersistency : FieldIs 133 (IsNum 255) es p.facePersistency
  baseCongestionMarkingInterval : FieldIs 135 IsSigned es p.baseCongestionMarkingInterval
  defaultCongestionThreshold : FieldIs 136 (IsNum (2 ^ 64 - 1)) es p.defaultCongestionThreshold
  mtu : FieldIs 137 (IsNum (2 ^ 64 - 1)) es p.mtu

/-- What the types of the members allow (`uint64_t`, a 16-bit enumeration, an 8-bit enumeration, a 64-bit signed count),
and names made of real components. -/
structure Ok (p : Params) : Prop where
  name : ∀ x, p.name = some x → NameWF x
  faceId : ∀ x, p.faceId = some x → x < 2 ^ 64
  origin : ∀ x, p.origin = some x → x ≤ 65535
  cost : ∀ x, p.cost = some x → x < 2 ^ 64
  capacity : ∀ x, p.capacity = some x → x < 2 ^ 64
  count : ∀ x, p.count = some x → x < 2 ^ 64
  flags : ∀ x, p.flags = some x → x < 2 ^ 64
  mask : ∀ x, p.mask = some x → x < 2 ^ 64
  strategy : ∀ x, p.strategy = some x → NameWF x
  expirationPeriod : ∀ x, p.expirationPeriod = some x → -2 ^ 63 ≤ x ∧ x < 2 ^ 63
  facePersistency : ∀ x, p.facePersistency = some x → x ≤ 255
  baseCongestionMarkingInterval : ∀ x, p.baseCongestionMarkingInterval = some x → -2 ^ 63 ≤ x ∧ x < 2 ^ 63
  defaultCongestionThreshold : ∀ x, p.defaultCongestionThreshold = some x → x < 2 ^ 64
  mtu : ∀ x, p.mtu = some x → x < 2 ^ 64
  /-- It fits in memory. -/
  size : p.value.length < 2 ^ 64

/-- Bit `i` of an optional number, absent meaning zero. -/
def bitOf (o : Option Nat) (i : Nat) : Bool := (o.getD 0).testBit i

/-- The fields other than Flags and Mask are the same. -/
def SameOthers (p q : Params) : Prop := { p with flags := none, mask := none } = { q with flags := none, mask := none }

/-! ### What a sequence of setters leaves -/

/-- A value of a field. -/
inductive Val where
  | name (n : List Comp)
  | num (n : Nat)
  | text (s : Bytes)
  | signed (d : Int)

/-- The value a caller gets for a field; `none` when it is not present. -/
def Params.get (p : Params) : Field → Option Val
  | .name => p.name.map .name
  | .faceId => p.faceId.map .num
  | .uri => p.uri.map .text
  | .localUri => p.localUri.map .text
  | .origin => p.origin.map .num
  | .cost => p.cost.map .num
  | .capacity => p.capacity.map .num
  | .count => p.count.map .num
  | .flags => p.flags.map .num
  | .mask => p.mask.map .num
  | .strategy => p.strategy.map .name
  | .expirationPeriod => p.expirationPeriod.map .signed
  | .facePersistency => p.facePersistency.map .num
  | .baseCongestionMarkingInterval => p.baseCongestionMarkingInterval.map .signed
  | .defaultCongestionThreshold => p.defaultCongestionThreshold.map .num
  | .mtu => p.mtu.map .num

/-- The field a call is about and what it is to hold afterwards. -/
def POp.writes : POp → Option (Field × Option Val)
  | .setName n => some (.name, some (.name n))
  | .setFaceId x => some (.faceId, some (.num x))
  | .setUri s => some (.uri, some (.text s))
  | .setLocalUri s => some (.localUri, some (.text s))
  | .setOrigin x => some (.origin, some (.num x))
  | .setCost x => some (.cost, some (.num x))
  | .setCapacity x => some (.capacity, some (.num x))
  | .setCount x => some (.count, some (.num x))
  | .setFlags x => some (.flags, some (.num x))
  | .setMask x => some (.mask, some (.num x))
  | .setStrategy n => some (.strategy, some (.name n))
  | .setExpirationPeriod d => some (.expirationPeriod, some (.signed d))
  | .setFacePersistency x => some (.facePersistency, some (.num x))
  | .setBaseCongestionMarkingInterval d => some (.baseCongestionMarkingInterval, some (.signed d))
  | .setDefaultCongestionThreshold x => some (.defaultCongestionThreshold, some (.num x))
  | .setMtu x => some (.mtu, some (.num x))
  | .unset f => some (f, none)
  | .encode => none
  | .decode _ => none

/-- What the last call about field `f` left in it, `before` if there was none. -/
def lastWrite (f : Field) (before : Option Val) : List POp → Option Val
  | [] => before
  | op :: ops => lastWrite f (match op.writes with
      | some (g, v) => if g = f then v else before
      | none => before) ops

/-- The call is not a decoding. -/
def POp.isDecode : POp → Bool
  | .decode _ => true
  | _ => false

end Ndn.Mgmt
