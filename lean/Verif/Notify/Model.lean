import Verif.Name.EditProps

/-!
# NotificationSubscriber

Model of `NotificationSubscriberBase` / `NotificationSubscriber<T>`,
`ndn-cxx/util/notification-subscriber.{hpp,cpp}`.

The Face, the scheduler, the handlers and the notification type are outside: an event of the
machine is a call from the application, or a call back from the Face or the scheduler.  Every
callback carries the calls the application's handlers make on the subscriber while they run.
-/

namespace Ndn.Notify
open Ndn.Name

/-- The constructor's arguments (`m_prefix`, `m_interestLifetime`), notification-subscriber.cpp
35-42, and the naming convention in force. -/
structure Cfg where
  pfx : List Comp
  lifetime : Nat
  conv : Settings

/-- The Interests of notification-subscriber.cpp 72-75 and 88-89. -/
structure Req where
  name : List Comp
  canBePrefix : Bool
  mustBeFresh : Bool
  lifetime : Nat
  deriving DecidableEq

/-- What can be observed from outside. -/
inductive Out where
  /-- `Face::expressInterest`; `old` is the still pending Interest that the assignment to
  `m_lastInterest` cancels. -/
  | express (r : Req) (old : Option Req)
  /-- A pending Interest is cancelled by `stop`. -/
  | cancel (r : Req)
  /-- `onNotification` is emitted to at least one handler. -/
  | deliver (note : Nat)
  /-- `onDecodeError`, `onNack`, `onTimeout` are emitted. -/
  | decodeError
  | nacked
  | timedOut
  /-- A call of `sendInitialInterest` is scheduled after this many milliseconds. -/
  | backoff (ms : Nat)
  deriving DecidableEq

/-- Calls of the application: `start`, `stop`, and making `onNotification` / `onNack` have
handlers or not. -/
inductive Call where
  | start
  | stop
  | subscribe (b : Bool)
  | listenNack (b : Bool)
  deriving DecidableEq

/-- Members, notification-subscriber.hpp 131-140; `timer` says whether `m_nackEvent` is pending,
`dead` whether undefined behaviour occurred. -/
structure St where
  running : Bool
  last : Nat
  lastNack : Nat
  attempts : Nat
  pending : Option Req
  timer : Bool
  hasSub : Bool
  hasNack : Bool
  dead : Bool

/-- Initial values, notification-subscriber.hpp 133-140. -/
def init : St :=
  { running := false, last := 2 ^ 64 - 1, lastNack := 2 ^ 64 - 1, attempts := 1, pending := none,
    timer := false, hasSub := false, hasNack := false, dead := false }

/-- `stop`, notification-subscriber.cpp 56-64. -/
def stop (s : St) : St × List Out :=
  if s.running then
    ({ s with running := false, pending := none },
      match s.pending with
      | some r => [.cancel r]
      | none => [])
  else (s, [])

/-- `shouldStop`, notification-subscriber.cpp 102-113. -/
def shouldStop (s : St) : Bool × St × List Out :=
  if !s.running then (true, s, [])
  else if !s.hasSub && !s.hasNack then (true, stop s)
  else (false, s, [])

/-- `sendInterest`, notification-subscriber.cpp 93-100. -/
def sendInterest (r : Req) (s : St) : St × List Out :=
  ({ s with pending := some r }, [.express r s.pending])

/-- `sendInitialInterest`, notification-subscriber.cpp 66-77. -/
def sendInitial (c : Cfg) (s : St) : St × List Out :=
  match shouldStop s with
  | (true, s, o) => (s, o)
  | (false, s, _) =>
    sendInterest { name := c.pfx, canBePrefix := true, mustBeFresh := true, lifetime := c.lifetime } s

/-- `sendNextInterest`, notification-subscriber.cpp 79-91; the sum is of `uint64_t`. -/
def sendNext (c : Cfg) (s : St) : St × List Out :=
  match shouldStop s with
  | (true, s, o) => (s, o)
  | (false, s, _) =>
    sendInterest { name := c.pfx ++ (Conv.sequence.from c.conv ((s.last + 1) % 2 ^ 64)).toList,
                   canBePrefix := false, mustBeFresh := false, lifetime := c.lifetime } s

/-- `start`, notification-subscriber.cpp 46-54. -/
def start (c : Cfg) (s : St) : St × List Out :=
  if s.running then (s, []) else sendInitial c { s with running := true }

/-- One call of the application. -/
def call (c : Cfg) (s : St) : Call → St × List Out
  | .start => start c s
  | .stop => stop s
  | .subscribe b => ({ s with hasSub := b }, [])
  | .listenNack b => ({ s with hasNack := b }, [])

/-- The calls made by the handlers of one signal emission. -/
def calls (c : Cfg) : St → List Call → St × List Out
  | s, [] => (s, [])
  | s, x :: xs =>
    let r := call c s x
    let q := calls c r.1 xs
    (q.1, r.2 ++ q.2)

/-- An emission followed by a continuation. -/
def emit (c : Cfg) (o : List Out) (react : List Call) (k : St → St × List Out) (s : St) :
    St × List Out :=
  let r := calls c s react
  let q := k r.1
  (q.1, o ++ r.2 ++ q.2)

/-- `afterReceiveData`, notification-subscriber.cpp 115-137, and `decodeAndDeliver`,
notification-subscriber.hpp 180-191 (`note` is what decoding the content gives).  `get(-1)` on an
empty name reads before the first component. -/
def afterData (c : Cfg) (name : List Comp) (note : Option Nat) (react : List Call) (s : St) :
    St × List Out :=
  match shouldStop s with
  | (true, s, o) => (s, o)
  | (false, s, _) =>
    match name.getLast? with
    | none => ({ s with dead := true }, [])
    | some x =>
      match Conv.sequence.to c.conv x with
      | none => emit c [.decodeError] react (sendInitial c) s
      | some n =>
        let s := { s with last := n }
        match note with
        | none => emit c [.decodeError] react (sendInitial c) s
        | some v =>
          if s.hasSub then emit c [.deliver v] react (sendNext c) s else sendNext c s

/-- `exponentialBackoff`, notification-subscriber.cpp 161-183: the new state and the delay.
Simplified: the delay is computed without the rounding of `double` (exact up to 2^46·100). -/
def exponentialBackoff (c : Cfg) (x : Comp) (rnd : Nat) (s : St) : St × Nat :=
  let n := (Conv.sequence.to c.conv x).getD 0
  let k := if s.lastNack = n then s.attempts + 1 else 1
  ({ s with attempts := k, lastNack := n }, 2 ^ k * 100 + rnd % 100)

/-- notification-subscriber.cpp 147-148: compute the delay and schedule.  `Scheduler::schedule`
takes nanoseconds, so a delay of 2^63 ns or more overflows (undefined). -/
def backoff (c : Cfg) (r : Req) (rnd : Nat) (s : St) : St × List Out :=
  match r.name.getLast? with
  | none => ({ s with dead := true }, [])
  | some x =>
    let q := exponentialBackoff c x rnd s
    if q.2 * 1000000 < 2 ^ 63 then ({ q.1 with timer := true }, [.backoff q.2])
    else ({ q.1 with dead := true }, [])

/-- `afterReceiveNack`, notification-subscriber.cpp 139-149; `r` is the Nacked Interest. -/
def afterNack (c : Cfg) (r : Req) (rnd : Nat) (react : List Call) (s : St) : St × List Out :=
  match shouldStop s with
  | (true, s, o) => (s, o)
  | (false, s, _) =>
    if s.hasNack then emit c [.nacked] react (backoff c r rnd) s else backoff c r rnd s

/-- `afterTimeout`, notification-subscriber.cpp 151-159. -/
def afterTimeout (c : Cfg) (react : List Call) (s : St) : St × List Out :=
  match shouldStop s with
  | (true, s, o) => (s, o)
  | (false, s, _) => emit c [.timedOut] react (sendInitial c) s

/-- Events. -/
inductive Ev where
  /-- A call of the application from outside the handlers. -/
  | call (x : Call)
  /-- The Face answers the pending Interest with a Data packet of this name. -/
  | data (name : List Comp) (note : Option Nat) (react : List Call)
  /-- The Face reports a Nack for the pending Interest; `rnd` is `random::generateWord32`. -/
  | nack (rnd : Nat) (react : List Call)
  /-- The Face reports that the pending Interest timed out. -/
  | timeout (react : List Call)
  /-- `m_nackEvent` expires. -/
  | timer

/-- One event, from a state in which nothing undefined has happened.  The Face calls back only for
an Interest that is pending (and then it is no longer pending); the scheduler only for an event
that is pending. -/
def act (c : Cfg) (s : St) : Ev → St × List Out
  | .call x => call c s x
  | .data name note react =>
    match s.pending with
    | none => (s, [])
    | some _ => afterData c name note react { s with pending := none }
  | .nack rnd react =>
    match s.pending with
    | none => (s, [])
    | some r => afterNack c r rnd react { s with pending := none }
  | .timeout react =>
    match s.pending with
    | none => (s, [])
    | some _ => afterTimeout c react { s with pending := none }
  | .timer => if s.timer then sendInitial c { s with timer := false } else (s, [])

def step (c : Cfg) (s : St) (e : Ev) : St × List Out :=
  if s.dead then (s, []) else act c s e

/-- A history: the events with what was observed during each. -/
abbrev Log := List (Ev × List Out)

def runFrom (c : Cfg) : St → List Ev → St × Log
  | s, [] => (s, [])
  | s, e :: es =>
    let r := step c s e
    let q := runFrom c r.1 es
    (q.1, (e, r.2) :: q.2)

/-- A fresh subscriber and a sequence of events. -/
def run (c : Cfg) (es : List Ev) : St × Log := runFrom c init es

end Ndn.Notify
