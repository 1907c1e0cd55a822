import Verif.Name.Model
import Verif.Lp.Model
/-
Model of `ndn::Face` (face.cpp, impl/face-impl.hpp, impl/pending-interest.hpp,
impl/record-container.hpp, impl/interest-filter-record.hpp, interest-filter.cpp).

Every public operation of a Face only allocates an identifier and posts a handler to the
io_context; the tables are touched by the posted handlers, by incoming packets, by timers and by
command replies.  The model is a step machine over these.  A user callback may call the public
operations; they only append to the queue of posted handlers and allocate identifiers, which the
handler that runs the callback does not read afterwards, so such calls are modelled as operations
following the step.  A user callback may also throw: each step that runs callbacks carries a
predicate `boom` telling the callbacks of which records throw.

Simplifications, for the whole file:
* the packets are abstract: `Env` gives `matchesData`, `matchesInterest` (the subject of C30 and
  C77), the name, the lifetime and the encoded sizes (link protocol headers included);
* an empty callback is a callback that does nothing: it is logged as invoked;
* the transport is a sink: connecting, pausing and resuming it are not modelled, and the only
  failure of `send` is the size limit;
* identifiers do not wrap around at 2^64;
* logging statements are omitted;
* the Face is not destroyed.
-/
namespace Ndn.Face
open Ndn.Name (Comp)

/-- The packets, as far as the Face looks at them. -/
structure Env (I D : Type) where
  /-- `Interest::matchesData`, interest.cpp 293-341. -/
  matchesData : I → D → Bool
  /-- `Interest::matchesInterest`, interest.cpp 343-349: first the Interest of a Nack, then the
  pending one. -/
  matchesInterest : I → I → Bool
  name : I → List Comp
  /-- `Interest::getInterestLifetime`, in milliseconds. -/
  lifetime : I → Nat
  /-- Sizes of the packets `finishEncoding` produces. -/
  sizeI : I → Nat
  sizeD : D → Nat
  sizeN : I → Int → Nat

/-- `lp::Nack`: the Interest and the reason code. -/
structure Nack (I : Type) where
  interest : I
  reason : Int
  deriving DecidableEq, Repr

/-- `InterestFilter`: prefix, optional regular expression on the remaining components (its
matcher, the subject of C41, is a predicate here), `allowsLoopback`. -/
structure Filter where
  pfx : List Comp
  regex : Option (List Comp → Bool)
  loopback : Bool

/-- `InterestFilter::doesMatch`, interest-filter.cpp 57-63. -/
def Filter.doesMatch (f : Filter) (name : List Comp) : Bool :=
  f.pfx.isPrefixOf name &&
    (match f.regex with
     | none => true
     | some r => r (name.drop f.pfx.length))

/-- `PendingInterest`, impl/pending-interest.hpp 174-184; `app` is the origin, `armed` whether the
timeout event is still scheduled, `expiry` its time. -/
structure Entry (I : Type) where
  id : Nat
  interest : I
  app : Bool
  expiry : Nat
  armed : Bool
  nNotNacked : Int
  least : Option (Nack I)

/-- `RegisteredPrefix`, impl/registered-prefix.hpp. -/
structure Reg where
  id : Nat
  pfx : List Comp
  filterId : Nat
  deriving DecidableEq

/-- A command sent by the NFD controller and not answered yet. -/
inductive Cmd where
  | register (id : Nat) (pfx : List Comp) (filter : Option Filter)
  | unregister (id : Nat)

/-- A handler posted to the io_context. -/
inductive Post (I D : Type) where
  | express (id : Nat) (i : I)
  | cancel (id : Nat)
  | removeAll
  | putData (d : D)
  | putNack (n : Nack I)
  | setFilter (fid : Nat) (f : Filter)
  | unsetFilter (fid : Nat)
  | unregister (id : Nat)
  | shutdown

/-- What can be observed, in chronological order. -/
inductive Obs (I D : Type) where
  /-- calls of the public operations -/
  | callExpress (id : Nat) (i : I)
  | callCancel (id : Nat)
  | callUnset (fid : Nat)
  | callRegister (id : Nat)
  | callUnregister (id : Nat)
  /-- a pending Interest record is made, at the given time -/
  | expressed (id : Nat) (i : I) (t : Nat)
  | arrived (id : Nat) (i : I) (t : Nat)
  /-- the handlers of `PendingInterestHandle::cancel`, and of what clears the table, run -/
  | cancelled (id : Nat)
  | cleared
  /-- a packet is received, or the handler of `put` runs -/
  | gotData (d : D)
  | putData (d : D)
  | gotNack (n : Nack I)
  | putNack (n : Nack I)
  /-- a packet is given to the transport -/
  | sentInterest (i : I)
  | sentData (d : D)
  | sentNack (n : Nack I)
  /-- callbacks of a pending Interest -/
  | data (id : Nat) (i : I) (d : D)
  | nack (id : Nat) (i : I) (n : Nack I)
  | timeout (id : Nat) (i : I) (t : Nat)
  /-- a filter enters and leaves the table; the Interest of a record is given to it -/
  | filterSet (fid : Nat) (f : Filter)
  | filterUnset (fid : Nat)
  | interest (fid : Nat) (id : Nat) (i : I)
  /-- callbacks of prefix registration -/
  | regOk (id : Nat)
  | regFail (id : Nat)
  | unregOk (id : Nat)
  | unregFail (id : Nat)
  /-- `Face::OversizedPacketError` is thrown -/
  | oversized
  /-- `BOOST_VERIFY(isNew)` does not hold, record-container.hpp 98 -/
  | dupRecord
  /-- `BOOST_ASSERT(m_nNotNacked >= 0)` does not hold, pending-interest.hpp 121 -/
  | nackCount

structure St (I D : Type) where
  now : Nat := 0
  /-- `m_pendingInterestTable`, a map: in the order of identifiers -/
  pit : List (Entry I) := []
  lastPit : Nat := 0
  /-- `m_interestFilterTable` -/
  filters : List (Nat × Filter) := []
  lastFilter : Nat := 0
  /-- `m_registeredPrefixTable` -/
  regs : List Reg := []
  lastReg : Nat := 0
  cmds : List Cmd := []
  queue : List (Post I D) := []
  log : List (Obs I D) := []

/-- `MAX_NDN_PACKET_SIZE`, encoding/tlv.hpp 41. -/
def maxPacket : Nat := 8800

section
variable {I D : Type} (E : Env I D)

/-- `RecordContainer::put` on the pending Interest table, record-container.hpp 92-104: `try_emplace`
in a map ordered by identifier.  The second component tells that the identifier is in use, when
`BOOST_VERIFY(isNew)` fails. -/
def putEntry (e : Entry I) : List (Entry I) → List (Entry I) × Bool
  | [] => ([e], false)
  | x :: xs =>
    if e.id < x.id then (e :: x :: xs, false)
    else if e.id = x.id then (x :: xs, true)
    else (x :: (putEntry e xs).1, (putEntry e xs).2)

/-- The same for the Interest filter table. -/
def putFilter (fid : Nat) (f : Filter) : List (Nat × Filter) → List (Nat × Filter) × Bool
  | [] => ([(fid, f)], false)
  | x :: xs =>
    if fid < x.1 then ((fid, f) :: x :: xs, false)
    else if fid = x.1 then (x :: xs, true)
    else (x :: (putFilter fid f xs).1, (putFilter fid f xs).2)

/-- The log entries of failed assertions. -/
def dupObs (bad : Bool) : List (Obs I D) := if bad then [.dupRecord] else []
def countObs (bad : Bool) : List (Obs I D) := if bad then [.nackCount] else []

/-- `PendingInterest::recordNack`, pending-interest.hpp 117-128: the entry, the Nack to report, and
whether the assertion fails.  The count goes on when the assertion is compiled out. -/
def recordNack (e : Entry I) (n : Nack I) : Entry I × Option (Nack I) × Bool :=
  let e : Entry I := { e with nNotNacked := e.nNotNacked - 1 }
  let bad := !(decide (e.nNotNacked ≥ 0))
  let e : Entry I :=
    match e.least with
    | none => { e with least := some n }
    | some m => if Lp.isLessSevere n.reason m.reason then { e with least := some n } else e
  (e, if e.nNotNacked > 0 then none else e.least, bad)

/-- Result of a loop over the pending Interest table. -/
structure Loop (I D : Type) where
  pit : List (Entry I)
  log : List (Obs I D)
  appMatch : Bool := false
  fwdMatch : Bool := false
  outNack : Option (Nack I) := none
  threw : Bool := false

/-- The loop of `satisfyPendingInterests`, face-impl.hpp 133-156, over the remaining entries;
`removeIf` is record-container.hpp 139-153.  A callback that throws ends the loop with its entry in
the table. -/
def satisfy (d : D) (boom : Nat → Bool) : List (Entry I) → Loop I D
  | [] => ⟨[], [], false, false, none, false⟩
  | e :: es =>
    let r := satisfy d boom es
    if !E.matchesData e.interest d then { r with pit := e :: r.pit }
    else if e.app then
      if boom e.id then ⟨e :: es, [.data e.id e.interest d], true, false, none, true⟩
      else { r with log := .data e.id e.interest d :: r.log, appMatch := true }
    else { r with fwdMatch := true }

/-- The loop of `nackPendingInterests`, face-impl.hpp 161-189: the last Nack found for an entry from
the forwarder is the result. -/
def nackLoop (n : Nack I) (boom : Nat → Bool) : List (Entry I) → Loop I D
  | [] => ⟨[], [], false, false, none, false⟩
  | e :: es =>
    let r := nackLoop n boom es
    if !E.matchesInterest n.interest e.interest then { r with pit := e :: r.pit }
    else
      let x := recordNack e n
      match x.2.1 with
      | none => { r with pit := x.1 :: r.pit, log := countObs x.2.2 ++ r.log }
      | some m =>
        if e.app then
          if boom e.id then
            ⟨x.1 :: es, countObs x.2.2 ++ [.nack e.id e.interest m], false, false, none, true⟩
          else { r with log := countObs x.2.2 ++ .nack e.id e.interest m :: r.log }
        else
          { r with
            log := countObs x.2.2 ++ r.log
            outNack := match r.outNack with
              | none => some m
              | some m' => some m' }

/-- `InterestFilterRecord::doesMatch`, interest-filter-record.hpp 58-63. -/
def filterMatch (f : Filter) (app : Bool) (i : I) : Bool :=
  (!app || f.loopback) && f.doesMatch (E.name i)

/-- `dispatchInterest`, face-impl.hpp 353-364, over the remaining filters: the entry and the log. -/
def dispatch (boom : Nat → Bool) (e : Entry I) : List (Nat × Filter) → Entry I × List (Obs I D)
  | [] => (e, [])
  | (fid, f) :: fs =>
    if !filterMatch E f e.app e.interest then dispatch boom e fs
    else
      let e : Entry I := { e with nNotNacked := e.nNotNacked + 1 }
      if boom fid then (e, [.interest fid e.id e.interest])
      else
        let r := dispatch boom e fs
        (r.1, .interest fid e.id e.interest :: r.2)

/-- The record of `PendingInterest`'s constructors, pending-interest.hpp 61-84, 155-160. -/
def newEntry (id : Nat) (i : I) (app : Bool) (now : Nat) : Entry I :=
  ⟨id, i, app, now + E.lifetime i, true, 0, none⟩

/-- `Face::Impl::expressInterest`, face-impl.hpp 91-112. -/
def doExpress (boom : Nat → Bool) (s : St I D) (id : Nat) (i : I) : St I D :=
  let e := newEntry E id i true s.now
  let e : Entry I := { e with nNotNacked := e.nNotNacked + 1 }
  let s : St I D := { s with log := s.log ++ [.expressed id i s.now] }
  if E.sizeI i > maxPacket then
    let r := putEntry e s.pit
    { s with pit := r.1, log := s.log ++ dupObs r.2 ++ [.oversized] }
  else
    let x := dispatch (D := D) E boom e s.filters
    let r := putEntry x.1 s.pit
    { s with pit := r.1, log := s.log ++ dupObs r.2 ++ .sentInterest i :: x.2 }

/-- `Face::Impl::processIncomingInterest`, face-impl.hpp 209-215. -/
def doArrive (boom : Nat → Bool) (s : St I D) (i : I) : St I D :=
  let id := s.lastPit + 1
  let e := newEntry E id i false s.now
  let x := dispatch (D := D) E boom e s.filters
  let r := putEntry x.1 s.pit
  { s with lastPit := id, pit := r.1,
           log := s.log ++ .arrived id i s.now :: dupObs r.2 ++ x.2 }

/-- `Face::Impl::putData`, face-impl.hpp 217-234. -/
def doPutData (boom : Nat → Bool) (s : St I D) (d : D) : St I D :=
  let r := satisfy E d boom s.pit
  let s : St I D := { s with pit := r.pit, log := s.log ++ .putData d :: r.log }
  if r.threw then s
  else if !(r.fwdMatch || !r.appMatch) then s
  else if E.sizeD d > maxPacket then { s with log := s.log ++ [.oversized] }
  else { s with log := s.log ++ [.sentData d] }

/-- `Face::Impl::putNack`, face-impl.hpp 236-254. -/
def doPutNack (boom : Nat → Bool) (s : St I D) (n : Nack I) : St I D :=
  let r := nackLoop (D := D) E n boom s.pit
  let s : St I D := { s with pit := r.pit, log := s.log ++ .putNack n :: r.log }
  if r.threw then s
  else
    match r.outNack with
    | none => s
    | some m =>
      if E.sizeN m.interest m.reason > maxPacket then { s with log := s.log ++ [.oversized] }
      else { s with log := s.log ++ [.sentNack m] }

/-- `Face::Impl::unsetInterestFilter`, face-impl.hpp 366-374. -/
def doUnset (s : St I D) (fid : Nat) : St I D :=
  { s with filters := s.filters.filter (fun x => x.1 != fid), log := s.log ++ [.filterUnset fid] }

/-- `Face::Impl::shutdown`, face-impl.hpp 321-327. -/
def doShutdown (s : St I D) : St I D :=
  { s with pit := [], regs := [], log := s.log ++ [.cleared] }

/-- `Face::Impl::unregisterPrefix`, face-impl.hpp 376-411, up to the start of the command. -/
def doUnregister (s : St I D) (id : Nat) : St I D :=
  match s.regs.find? (fun r => r.id == id) with
  | none => { s with log := s.log ++ [.unregFail id] }
  | some r =>
    let s : St I D := if r.filterId != 0 then doUnset s r.filterId else s
    { s with cmds := s.cmds ++ [.unregister id] }

/-- A posted handler: face.cpp 150-253 and face-impl.hpp 113-127, 192-207, 295-306. -/
def handle (boom : Nat → Bool) (s : St I D) : Post I D → St I D
  | .express id i => doExpress E boom s id i
  | .cancel id =>
    { s with pit := s.pit.filter (fun e => e.id != id), log := s.log ++ [.cancelled id] }
  | .removeAll => { s with pit := [], log := s.log ++ [.cleared] }
  | .putData d => doPutData E boom s d
  | .putNack n => doPutNack E boom s n
  | .setFilter fid f =>
    let r := putFilter fid f s.filters
    { s with filters := r.1, log := s.log ++ .filterSet fid f :: dupObs r.2 }
  | .unsetFilter fid => doUnset s fid
  | .unregister id => doUnregister s id
  | .shutdown => doShutdown s

/-- A timeout event of the scheduler, `invokeTimeoutCallback`, pending-interest.hpp 162-173.  Events
run at or after their time (C35). -/
def doFire (boom : Nat → Bool) (s : St I D) (id : Nat) : St I D :=
  match s.pit.find? (fun e => e.id == id && e.armed && decide (e.expiry ≤ s.now)) with
  | none => s
  | some e =>
    if e.app then
      let s : St I D := { s with log := s.log ++ [.timeout id e.interest s.now] }
      if boom id then
        { s with pit := s.pit.map (fun x => if x.id == id then { x with armed := false } else x) }
      else { s with pit := s.pit.filter (fun x => x.id != id) }
    else { s with pit := s.pit.filter (fun x => x.id != id) }

/-- The reply handlers of the prefix registration commands, face-impl.hpp 267-290 and 394-409;
`k` is the position of the command among those not answered. -/
def doReply (s : St I D) (k : Nat) (ok : Bool) : St I D :=
  match s.cmds[k]? with
  | none => s
  | some (.register id pfx filter) =>
    let s : St I D := { s with cmds := s.cmds.eraseIdx k }
    if ok then
      match filter with
      | none =>
        { s with regs := s.regs ++ [⟨id, pfx, 0⟩], log := s.log ++ [.regOk id] }
      | some f =>
        let fid := s.lastFilter + 1
        let r := putFilter fid f s.filters
        { s with lastFilter := fid, filters := r.1, regs := s.regs ++ [⟨id, pfx, fid⟩],
                 log := s.log ++ .filterSet fid f :: dupObs r.2 ++ [.regOk id] }
    else { s with log := s.log ++ [.regFail id] }
  | some (.unregister id) =>
    let s : St I D := { s with cmds := s.cmds.eraseIdx k }
    if ok then
      { s with regs := s.regs.filter (fun r => r.id != id), log := s.log ++ [.unregOk id] }
    else { s with log := s.log ++ [.unregFail id] }

/-- Operations.  Handles are only obtained from the operation that makes them, so an operation on a
handle whose identifier was not given out does nothing. -/
inductive Op (I D : Type) where
  | express (i : I)
  | cancel (id : Nat)
  | removeAll
  | putData (d : D)
  | putNack (n : Nack I)
  | setFilter (f : Filter)
  | unsetFilter (fid : Nat)
  | register (pfx : List Comp) (filter : Option Filter)
  | unregister (id : Nat)
  | shutdown
  /-- the io_context runs the first posted handler -/
  | run (boom : Nat → Bool)
  /-- the scheduler runs a timeout event -/
  | fire (id : Nat) (boom : Nat → Bool)
  /-- the transport delivers a packet -/
  | recvInterest (i : I) (boom : Nat → Bool)
  | recvData (d : D) (boom : Nat → Bool)
  | recvNack (n : Nack I) (boom : Nat → Bool)
  /-- a registration command is answered, fails or times out -/
  | reply (k : Nat) (ok : Bool)
  | advance (dt : Nat)
  /-- `processEvents` lets an exception through: `Impl::shutdown` runs, face.cpp 259 -/
  | unwind

/-- The identifiers of the handles `expressInterest` has returned. -/
def handles (log : List (Obs I D)) : List Nat :=
  log.filterMap fun | .callExpress id _ => some id | _ => none

/-- One operation: the public functions of face.cpp 150-253, 272-282, 345-398, the packet handler
310-343, and the events above. -/
def step (s : St I D) : Op I D → St I D
  | .express i =>
    { s with lastPit := s.lastPit + 1, queue := s.queue ++ [.express (s.lastPit + 1) i],
             log := s.log ++ [.callExpress (s.lastPit + 1) i] }
  | .cancel id =>
    if (handles s.log).contains id then
      { s with queue := s.queue ++ [.cancel id], log := s.log ++ [.callCancel id] }
    else s
  | .removeAll => { s with queue := s.queue ++ [.removeAll] }
  | .putData d => { s with queue := s.queue ++ [.putData d] }
  | .putNack n => { s with queue := s.queue ++ [.putNack n] }
  | .setFilter f =>
    { s with lastFilter := s.lastFilter + 1, queue := s.queue ++ [.setFilter (s.lastFilter + 1) f] }
  | .unsetFilter fid =>
    if 0 < fid ∧ fid ≤ s.lastFilter then
      { s with queue := s.queue ++ [.unsetFilter fid], log := s.log ++ [.callUnset fid] }
    else s
  | .register pfx f =>
    { s with lastReg := s.lastReg + 1, cmds := s.cmds ++ [.register (s.lastReg + 1) pfx f],
             log := s.log ++ [.callRegister (s.lastReg + 1)] }
  | .unregister id =>
    if 0 < id ∧ id ≤ s.lastReg then
      { s with queue := s.queue ++ [.unregister id], log := s.log ++ [.callUnregister id] }
    else s
  | .shutdown => { s with queue := s.queue ++ [.shutdown] }
  | .run boom =>
    match s.queue with
    | [] => s
    | p :: ps => handle E boom { s with queue := ps } p
  | .fire id boom => doFire boom s id
  | .recvInterest i boom => doArrive E boom s i
  | .recvData d boom =>
    let r := satisfy E d boom s.pit
    { s with pit := r.pit, log := s.log ++ .gotData d :: r.log }
  | .recvNack n boom =>
    let r := nackLoop (D := D) E n boom s.pit
    { s with pit := r.pit, log := s.log ++ .gotNack n :: r.log }
  | .reply k ok => doReply s k ok
  | .advance dt => { s with now := s.now + dt }
  | .unwind => doShutdown s

/-- A history. -/
def run (s : St I D) (ops : List (Op I D)) : St I D := ops.foldl (step E) s

end
end Ndn.Face
