import Verif.Notify.Model

/-!
# What a notification subscriber should do, read off its history

Nothing here uses the functions of the model: only events, observations and names.
-/

namespace Ndn.Notify.Spec
open Ndn.Notify Ndn.Name

/-- The initial Interest: the stream's prefix, any fresh notification. -/
def initialReq (c : Cfg) : Req :=
  { name := c.pfx, canBePrefix := true, mustBeFresh := true, lifetime := c.lifetime }

/-- The Interest for notification number `n` and nothing else. -/
def numberedReq (c : Cfg) (n : Nat) : Req :=
  { name := c.pfx ++ [Name.Spec.convComp c.conv.encodeMarker .sequence n],
    canBePrefix := false, mustBeFresh := false, lifetime := c.lifetime }

/-- The sequence number at the end of a name. -/
def seqOf (c : Cfg) (name : List Comp) : Option Nat :=
  match name.getLast? with
  | none => none
  | some x => Conv.sequence.to c.conv x

/-- The outstanding Interest after an observation. -/
def track (p : Option Req) : Out → Option Req
  | .express r _ => some r
  | .cancel _ => none
  | _ => p

/-- An event that answers the outstanding Interest. -/
def answers : Ev → Bool
  | .data .. => true
  | .nack .. => true
  | .timeout .. => true
  | _ => false

/-- The Interest that is outstanding after a history. -/
def outstanding (l : Log) : Option Req :=
  l.foldl (fun p x => x.2.foldl track (if answers x.1 then none else p)) none

/-- Does the event contain a call of `start`? -/
def starts : Ev → Bool
  | .call x => x = .start
  | .data _ _ r => r.contains .start
  | .nack _ r => r.contains .start
  | .timeout r => r.contains .start
  | .timer => false

/-- A back-off timer is pending after the history. -/
def waiting (l : Log) : Bool :=
  l.foldl (fun w x =>
    x.2.foldl (fun w o => match o with | .backoff _ => true | _ => w)
      (match x.1 with | .timer => false | _ => w)) false

/-- The sequence numbers of the Nacks that led to a back-off, latest first; a Nack of an Interest
without sequence number counts as 0. -/
def nackNums (c : Cfg) : Log → List Nat
  | l => (l.foldl (fun (a : Option Req × List Nat) x =>
      (x.2.foldl track (if answers x.1 then none else a.1),
       if x.2.any (fun o => match o with | .backoff _ => true | _ => false)
       then ((a.1.bind fun r => seqOf c r.name).getD 0) :: a.2 else a.2)) (none, [])).2

/-- How many of the latest Nacks had the same number as the latest one. -/
def streak : List Nat → Nat
  | [] => 0
  | n :: ns => 1 + (ns.takeWhile (· = n)).length

end Ndn.Notify.Spec
