import Verif.Face.Model
/-
Specification vocabulary for the Face (C47-C50, C80): all of it is about the chronological log of
observations, not about the tables.
-/
namespace Ndn.Face.Spec
open Ndn.Name (Comp)
variable {I D : Type}

/-- The step runs no callback that throws. -/
def Calm : Op I D → Prop
  | .run boom | .fire _ boom | .recvInterest _ boom | .recvData _ boom | .recvNack _ boom =>
    ∀ x, boom x = false
  | _ => True

/-- An invocation of the Data, Nack or timeout callback of the pending Interest `id`. -/
def outcome (id : Nat) : Obs I D → Bool
  | .data x _ _ | .nack x _ _ | .timeout x _ _ => x == id
  | _ => false

/-- The number of invocations of the callbacks of the pending Interest `id`. -/
def outcomes (id : Nat) (log : List (Obs I D)) : Nat := log.countP (outcome id)

/-- The pending Interest `id` is made: expressed by the application or received. -/
def creates (id : Nat) : Obs I D → Bool
  | .expressed x _ _ | .arrived x _ _ => x == id
  | _ => false

/-- What was observed since the pending Interest `id` was made. -/
def since (id : Nat) (log : List (Obs I D)) : List (Obs I D) :=
  log.dropWhile (fun o => !creates id o)

/-- The table of pending Interests was cleared (`removeAllPendingInterests`, `shutdown`, or an
exception out of `processEvents`). -/
def isCleared : Obs I D → Bool
  | .cleared => true
  | _ => false

def isCancelled (id : Nat) : Obs I D → Bool
  | .cancelled x => x == id
  | _ => false

/-- The Nack received from the forwarder or put by the application. -/
def nackOf : Obs I D → Option (Nack I)
  | .gotNack n | .putNack n => some n
  | _ => none

/-- The Nacks for the pending Interest `id`, since it was made. -/
def nacksFor (E : Env I D) (id : Nat) (i : I) (log : List (Obs I D)) : List (Nack I) :=
  ((since id log).filterMap nackOf).filter (fun n => E.matchesInterest n.interest i)

/-- A destination of the pending Interest `id`: the forwarder if the application expressed it, and
each filter it is delivered to. -/
def destination (id : Nat) : Obs I D → Bool
  | .expressed x _ _ => x == id
  | .interest _ x _ => x == id
  | _ => false

/-- The number of destinations of the pending Interest `id`. -/
def destinations (id : Nat) (log : List (Obs I D)) : Nat := log.countP (destination id)

/-- `x` is less severe than `y`: no reason (0) is the most severe, otherwise the smaller code is the
less severe one. -/
def LessSevere (x y : Int) : Prop := x ≠ 0 ∧ (y = 0 ∨ x < y)

/-- The filter `fid` is set. -/
def Live (log : List (Obs I D)) (fid : Nat) (f : Filter) : Prop :=
  Obs.filterSet fid f ∈ log ∧ Obs.filterUnset fid ∉ log

/-- The filter accepts the name: its prefix is a prefix of the name and its regular expression, if
any, accepts the rest. -/
def Accepts (f : Filter) (name : List Comp) : Prop :=
  ∃ rest, name = f.pfx ++ rest ∧ ∀ r, f.regex = some r → r rest = true

/-- The Interest of record `id` is given to filter `fid`. -/
def delivered (fid id : Nat) : Obs I D → Bool
  | .interest x y _ => x == fid && y == id
  | _ => false

/-- The success or failure callback of the registration `id` is invoked. -/
def regAnswer (id : Nat) : Obs I D → Bool
  | .regOk x | .regFail x => x == id
  | _ => false

/-- A callback of an unregistration of `id` is invoked. -/
def unregAnswer (id : Nat) : Obs I D → Bool
  | .unregOk x | .unregFail x => x == id
  | _ => false

/-- `unregister` is called on the handle `id`. -/
def unregCall (id : Nat) : Obs I D → Bool
  | .callUnregister x => x == id
  | _ => false

/-- The command is the registration `id`. -/
def isRegister (id : Nat) : Cmd → Bool
  | .register x _ _ => x == id
  | _ => false

def isUnregister (id : Nat) : Cmd → Bool
  | .unregister x => x == id
  | _ => false

/-- The posted handler is that of an `unregister` call on the handle `id`. -/
def isUnregPost (id : Nat) : Post I D → Bool
  | .unregister x => x == id
  | _ => false

end Ndn.Face.Spec
