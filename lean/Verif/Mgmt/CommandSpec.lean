import Verif.Mgmt.ParamsSpec
/-
What each NFD control command takes and returns, as the management protocol says (NFD Management Protocol, and the
comments of control-command.hpp): which fields a request or response must have and may have, further conditions on the
values, and the values of missing fields.
-/
namespace Ndn.Mgmt

inductive Rule where
  | required
  | optional
  | forbidden
  deriving DecidableEq

/-- The fields of a request. -/
def requestRule : Command → Field → Rule
  | .faceCreate, .uri => .required
  | .faceCreate, .localUri => .optional
  | .faceCreate, .facePersistency => .optional
  | .faceCreate, .baseCongestionMarkingInterval => .optional
  | .faceCreate, .defaultCongestionThreshold => .optional
  | .faceCreate, .mtu => .optional
  | .faceCreate, .flags => .optional
  | .faceCreate, .mask => .optional
  | .faceUpdate, .faceId => .optional
  | .faceUpdate, .facePersistency => .optional
  | .faceUpdate, .baseCongestionMarkingInterval => .optional
  | .faceUpdate, .defaultCongestionThreshold => .optional
  | .faceUpdate, .mtu => .optional
  | .faceUpdate, .flags => .optional
  | .faceUpdate, .mask => .optional
  | .faceDestroy, .faceId => .required
  | .fibAddNextHop, .name => .required
  | .fibAddNextHop, .faceId => .optional
  | .fibAddNextHop, .cost => .optional
  | .fibRemoveNextHop, .name => .required
  | .fibRemoveNextHop, .faceId => .optional
  | .csConfig, .capacity => .optional
  | .csConfig, .flags => .optional
  | .csConfig, .mask => .optional
  | .csErase, .name => .required
  | .csErase, .count => .optional
  | .strategyChoiceSet, .name => .required
  | .strategyChoiceSet, .strategy => .required
  | .strategyChoiceUnset, .name => .required
  | .ribRegister, .name => .required
  | .ribRegister, .faceId => .optional
  | .ribRegister, .origin => .optional
  | .ribRegister, .cost => .optional
  | .ribRegister, .flags => .optional
  | .ribRegister, .expirationPeriod => .optional
  | .ribUnregister, .name => .required
  | .ribUnregister, .faceId => .optional
  | .ribUnregister, .origin => .optional
  | _, _ => .forbidden

/-- The fields of a response. -/
def responseRule : Command → Field → Rule
  | .faceCreate, .faceId => .required
  | .faceCreate, .uri => .required
  | .faceCreate, .localUri => .required
  | .faceCreate, .facePersistency => .required
  | .faceCreate, .flags => .required
  | .faceCreate, .baseCongestionMarkingInterval => .optional
  | .faceCreate, .defaultCongestionThreshold => .optional
  | .faceCreate, .mtu => .optional
  | .faceUpdate, .faceId => .required
  | .faceUpdate, .facePersistency => .required
  | .faceUpdate, .flags => .required
  | .faceUpdate, .baseCongestionMarkingInterval => .optional
  | .faceUpdate, .defaultCongestionThreshold => .optional
  | .faceUpdate, .mtu => .optional
  | .faceDestroy, .faceId => .required
  | .fibAddNextHop, .name => .required
  | .fibAddNextHop, .faceId => .required
  | .fibAddNextHop, .cost => .required
  | .fibRemoveNextHop, .name => .required
  | .fibRemoveNextHop, .faceId => .required
  | .csConfig, .capacity => .required
  | .csConfig, .flags => .required
  | .csErase, .name => .required
  | .csErase, .count => .required
  | .csErase, .capacity => .optional
  | .strategyChoiceSet, .name => .required
  | .strategyChoiceSet, .strategy => .required
  | .strategyChoiceUnset, .name => .required
  | .ribRegister, .name => .required
  | .ribRegister, .faceId => .required
  | .ribRegister, .origin => .required
  | .ribRegister, .cost => .required
  | .ribRegister, .flags => .required
  | .ribRegister, .expirationPeriod => .optional
  | .ribUnregister, .name => .required
  | .ribUnregister, .faceId => .required
  | .ribUnregister, .origin => .required
  | _, _ => .forbidden

/-- A field is there if it must be, and is not if it must not be. -/
def Obeys (r : Rule) (present : Bool) : Prop :=
  (r = .required → present = true) ∧ (r = .forbidden → present = false)

/-- Further conditions on a request. -/
def requestExtra : Command → Params → Prop
  | .faceCreate, p => (p.flags.isSome ↔ p.mask.isSome)
  | .faceUpdate, p => (p.flags.isSome ↔ p.mask.isSome)
  | .csConfig, p => (p.flags.isSome ↔ p.mask.isSome)
  | .faceDestroy, p => p.faceId ≠ some 0
  | .csErase, p => p.count ≠ some 0
  | .strategyChoiceUnset, p => p.name ≠ some []
  | _, _ => True

/-- Further conditions on a response. -/
def responseExtra : Command → Params → Prop
  | .csConfig, _ => True
  | .strategyChoiceSet, _ => True
  | .csErase, p => p.capacity ≠ some 0
  | .strategyChoiceUnset, p => p.name ≠ some []
  | _, p => p.faceId ≠ some 0

/-- The value a missing field of a request stands for. -/
def defaultOf : Command → Field → Option Val
  | .faceCreate, .facePersistency => some (.num 0)
  | .faceUpdate, .faceId => some (.num 0)
  | .fibAddNextHop, .faceId => some (.num 0)
  | .fibAddNextHop, .cost => some (.num 0)
  | .fibRemoveNextHop, .faceId => some (.num 0)
  | .ribRegister, .faceId => some (.num 0)
  | .ribRegister, .origin => some (.num 0)
  | .ribRegister, .cost => some (.num 0)
  | .ribRegister, .flags => some (.num 1)
  | .ribUnregister, .faceId => some (.num 0)
  | .ribUnregister, .origin => some (.num 0)
  | _, _ => none

end Ndn.Mgmt
